import Verif.ChainIter

/-!
# Set operations on queues at pointer level
-/

namespace Verif
namespace Chain
open Queue (QR)

/-- the loop `while mx != self._tail: ... mx = mx.successor` of the set operations (salabim.py:5479-5488, 5528-5532, 5573-5577,
5613-5622, 5664-5667), with the test on the component and what becomes of the priority -/
def copyLoop (keep : CId → Bool) (pr : Rat → Rat) (tail : NId) (q1 : QId) : Nat → NId → PS → PR
  | 0, _, s => .err .attribute s
  | f + 1, mx, s =>
    if mx = tail then .ok s else
    match (s.nodes mx).comp with
    | none => .err .attribute s
    | some c =>
      match (if keep c then append c q1 (pr (s.nodes mx).prio) s else .ok s) with
      | .err e s' => .err e s'
      | .ok s' =>
        match (s'.nodes mx).succ with
        | none => .err .attribute s'
        | some n => copyLoop keep pr tail q1 f n s'

/-- `mx = self._head.successor` and the loop -/
def copyFrom (keep : CId → Bool) (pr : Rat → Rat) (q q1 : QId) (s : PS) : PR :=
  match (s.nodes (s.queues q).head).succ with
  | none => .err .attribute s
  | some h => copyLoop keep pr (s.queues q).tail q1 s.next h s

def PR.andThen : PR → (PS → PR) → PR
  | .ok s, f => f s
  | .err e s, _ => .err e s

/-- `union` (salabim.py:5441-5492); `order q s` is the set made by `as_set` -/
def union (q qb q1 : QId) (s : PS) : PR :=
  let S := order q s
  (copyFrom (fun _ => true) (fun _ => 0) q q1 (newQueue q1 ⊤ s)).andThen (copyFrom (fun c => decide (c ∉ S)) (fun _ => 0) qb q1)
/-- `intersection` (salabim.py:5494-5538) -/
def intersection (q qb q1 : QId) (s : PS) : PR :=
  let S := order qb s
  copyFrom (fun c => decide (c ∈ S)) (fun _ => 0) q q1 (newQueue q1 ⊤ s)
/-- `difference` (salabim.py:5540-5580) -/
def difference (q qb q1 : QId) (s : PS) : PR :=
  let S := order qb s
  copyFrom (fun c => decide (c ∉ S)) id q q1 (newQueue q1 ⊤ s)
/-- `symmetric_difference` (salabim.py:5582-5628) -/
def symmetricDifference (q qb q1 : QId) (s : PS) : PR :=
  let S := (order q s).filter (fun c => decide (c ∈ order qb s))
  (copyFrom (fun c => decide (c ∉ S)) (fun _ => 0) q q1 (newQueue q1 ⊤ s)).andThen (copyFrom (fun c => decide (c ∉ S)) (fun _ => 0) qb q1)
/-- `copy` (salabim.py:5630-5670) -/
def copy (q q1 : QId) (copyCapacity : Bool) (s : PS) : PR :=
  copyFrom (fun _ => true) id q q1 (if copyCapacity then newCopy q1 (s.queues q).cap s else newQueue q1 ⊤ s)

/-- the loop of `clear` (salabim.py:5713-5718) -/
def clearLoop (q : QId) (tail : NId) : Nat → NId → PS → PR
  | 0, _, s => .err .attribute s
  | f + 1, mx, s =>
    if mx = tail then .ok s else
    match (s.nodes mx).comp, (s.nodes mx).succ with
    | some c, some n => (leave c q s).andThen (clearLoop q tail f n)
    | _, _ => .err .attribute s
/-- `clear` (salabim.py:5706-5720) -/
def clear (q : QId) (s : PS) : PR :=
  match (s.nodes (s.queues q).head).succ with
  | none => .err .attribute s
  | some h => clearLoop q (s.queues q).tail s.next h s
/-- `move` (salabim.py:5672-5704) -/
def move (q q1 : QId) (copyCapacity : Bool) (s : PS) : PR := (copy q q1 copyCapacity s).andThen (clear q)

/-- the loop of `extend` (salabim.py:5414-5417) over the components of the source -/
def extendLoop (q : QId) : List CId → PS → PR
  | [], s => .ok s
  | c :: cs, s => if (s.qm c q).isSome then extendLoop q cs s else (enter c q none s).andThen (extendLoop q cs)
/-- `extend` with a queue as source (salabim.py:5389-5433) -/
def extend (q src : QId) (clearSource : Bool) (s : PS) : PR :=
  (extendLoop q (order src s) s).andThen (fun s => if clearSource then clear src s else .ok s)

/-! ## proofs -/

/-- nothing about the other queues changes -/
def OthersSame (q : QId) (w w' : PW) : Prop := ∀ p, p ≠ q → p ∈ w.live → content p w'.s = content p w.s ∧ (w'.s.queues p).cap = (w.s.queues p).cap

theorem OthersSame.refl (q w) : OthersSame q w w := fun _ _ _ => ⟨rfl, rfl⟩

theorem OthersSame.trans {q w w' w''} (h : OthersSame q w w') (h' : OthersSame q w' w'') (hl : w'.live = w.live) : OthersSame q w w'' := by
  intro p hp hpl
  have a := h p hp hpl
  have b := h' p hp (hl ▸ hpl)
  exact ⟨b.1.trans a.1, b.2.trans a.2⟩

theorem append_none {s c q prio} (h : s.qm c q = none) : append c q prio s = insertInFrontOf (s.queues q).tail c q prio s := by
  unfold append; rw [h]; rfl

/-- enough capacity for `n` more -/
def Fits (cap : ETime) (len n : Nat) : Prop := n = 0 ∨ ((len + n : Nat) : Rat) ≤ (cap : ETime)

theorem qm_none {s live ids} (h : Rep s live ids) {q c} (hq : live q) (hc : c ∉ order q s) : s.qm c q = none := by
  cases hx : s.qm c q with
  | none => rfl
  | some n => exact absurd ((h.mem_order hq c).2 (by simp [hx])) hc

theorem order_eq_map {q s} : order q s = (content q s).map QMem.c := rfl

theorem insert_none {q : Queue} {t l} (h : q.insert t l = none) : ¬ Queue.Room q := by
  unfold Queue.insert at h
  rw [Queue.room_iff]
  split at h
  · rename_i hx; exact not_not.2 hx
  · cases h

/-- the queue that is filled -/
structure Filled (w w' : PW) (q1 : QId) (add : List QMem) : Prop where
  reach : PReach w'
  live : w'.live = w.live
  now : w'.s.now = w.s.now
  cont : content q1 w'.s = content q1 w.s ++ add
  cap : (w'.s.queues q1).cap = (w.s.queues q1).cap
  others : OthersSame q1 w w'

/-- what gets copied -/
def picked (keep : CId → Bool) (pr : Rat → Rat) (now : Rat) (l : List QMem) : List QMem :=
  (l.filter (fun m => keep m.c)).map (fun m => ⟨m.c, pr m.prio, now⟩)

theorem copyLoop_spec (keep pr) {q q1 : QId} (hne : q ≠ q1) :
    ∀ (l2 l1 : List NId) (w : PW) (ids) (m2 : NId) (B : List NId) (f : Nat), PReach w → Rep w.s w.Live ids → q ∈ w.live → q1 ∈ w.live →
    ids q = l1 ++ l2 → l2 ++ [(w.s.queues q).tail] = m2 :: B → l2.length < f →
    (∀ m ∈ l2.map (mem w.s), keep m.c → m.c ∉ order q1 w.s) →
    (Fits (w.s.queues q1).cap (order q1 w.s).length (picked keep pr w.s.now (l2.map (mem w.s))).length →
      ∃ s', copyLoop keep pr (w.s.queues q).tail q1 f m2 w.s = .ok s' ∧ Filled w ⟨s', w.live⟩ q1 (picked keep pr w.s.now (l2.map (mem w.s)))) ∧
    (¬ Fits (w.s.queues q1).cap (order q1 w.s).length (picked keep pr w.s.now (l2.map (mem w.s))).length →
      ∃ s', copyLoop keep pr (w.s.queues q).tail q1 f m2 w.s = .err .queueFull s') := by
  intro l2
  induction l2 with
  | nil =>
    intro l1 w ids m2 B f hw hr hq hq1 hi h2 hf hnew
    cases f with
    | zero => simp at hf
    | succ f =>
      have : m2 = (w.s.queues q).tail := (List.cons.inj h2).1.symm
      unfold copyLoop
      rw [if_pos this]
      refine ⟨fun _ => ⟨w.s, rfl, hw, rfl, rfl, by simp [picked], rfl, OthersSame.refl _ _⟩, fun hx => absurd (.inl (by simp [picked])) hx⟩
  | cons a l2 ih =>
    intro l1 w ids m2 B f hw hr hq hq1 hi h2 hf hnew
    cases f with
    | zero => simp at hf
    | succ f =>
      have ha : a = m2 := (List.cons.inj h2).1
      subst ha
      have hain : a ∈ ids q := by rw [hi]; simp
      have hne' : a ≠ (w.s.queues q).tail := by
        have hn := hr.nodup q hq
        unfold ring at hn
        rw [List.nodup_cons, List.nodup_append] at hn
        intro hh
        exact hn.2.2.2 a hain a (by simp [hh]) rfl
      obtain ⟨c, hc⟩ := Option.isSome_iff_exists.1 (hr.comp q hq a hain)
      have hmc : (mem w.s a).c = c := by simp [mem, hc]
      have hmp : (mem w.s a).prio = (w.s.nodes a).prio := rfl
      have hi' : ids q = (l1 ++ [a]) ++ l2 := by simpa using hi
      obtain ⟨m', B', h2'⟩ := cons_of_snoc (w.s.queues q).tail l2
      unfold copyLoop
      rw [if_neg hne']
      simp only [hc]
      by_cases hk : keep c
      · rw [if_pos hk]
        have hcq1 : c ∉ order q1 w.s := by
          have := hnew (mem w.s a) (by simp) (by rw [hmc]; exact hk)
          rwa [hmc] at this
        have hqm := qm_none hr hq1 hcq1
        have hpk : picked keep pr w.s.now ((a :: l2).map (mem w.s)) =
            ⟨c, pr (w.s.nodes a).prio, w.s.now⟩ :: picked keep pr w.s.now (l2.map (mem w.s)) := by
          simp [picked, hmc, hk, hmp]
        rw [hpk]
        have hins := hr.insert (c := c) (prio := pr (w.s.nodes a).prio) hq1 (l1 := ids q1) (l2 := []) (m2 := (w.s.queues q1).tail) (B := []) (by simp) rfl hqm
        have hlen : (abs w.s ids q1).mem.length = (order q1 w.s).length := by unfold order; rw [hr.content hq1]; simp
        split at hins
        · rename_i hnone
          have hroom := insert_none hnone
          rw [append_none hqm, hins]
          refine ⟨fun hfit => ?_, fun _ => ⟨_, rfl⟩⟩
          exfalso
          apply hroom
          unfold Queue.Room
          rw [hlen]
          rcases hfit with h0 | h0
          · simp at h0
          · refine le_trans (WithTop.coe_le_coe.2 ?_) h0
            simp only [List.length_cons]
            exact_mod_cast Nat.add_le_add_left (Nat.succ_le_succ (Nat.zero_le _)) _
        · rename_i q' hsome
          obtain ⟨hroom, hq'⟩ := Queue.insert_some hsome
          obtain ⟨s', e1, e2, e3, e4, e5, e6⟩ := hins
          rw [append_none hqm, e1]
          simp only
          have hstep : PReach ⟨s', w.live⟩ := .step (.append c q1 (pr (w.s.nodes a).prio)) none hw
            (.op _ q1 _ rfl hq1 (by simp only [prun1]; rw [append_none hqm, e1]))
          have hidq : (upd ids q1 (ids q1 ++ w.s.next :: [])) q = ids q := upd_other hne
          have habs := e4 q hne hq
          have hmem : (ids q).map (mem s') = (ids q).map (mem w.s) := by
            have := congrArg Queue.mem habs
            simp only [abs, hidq] at this
            exact this
          have hmem2 : l2.map (mem s') = l2.map (mem w.s) := by
            exact List.map_congr_left fun n hn => List.map_inj_left.1 hmem n (by rw [hi]; simp [hn])
          have htail : (s'.queues q).tail = (w.s.queues q).tail ∧ (s'.queues q).head = (w.s.queues q).head := by
            have hx := e2.toWf.chain q hq
            unfold insertInFrontOf at e1
            simp only at e1
            split at e1
            · cases e1
            · split at e1
              · cases e1
              · cases e1
                simp [setQ_queues, hne]
          have hsucc : (s'.nodes a).succ = some m' := by
            have := (e2.toWf.link (q := q) hq (l1 := l1 ++ [a]) (l2 := l2) (A := (s'.queues q).head :: l1) (m1 := a) (m2 := m') (B := B')
              (by rw [hidq]; exact hi') (by simp) (by rw [htail.1]; exact h2')).1
            exact this
          rw [hsucc]
          simp only
          have hcont : content q1 s' = content q1 w.s ++ [⟨c, pr (w.s.nodes a).prio, w.s.now⟩] := by
            rw [e2.content hq1, hr.content hq1, e3, hq']; simp [abs]
          have hord : order q1 s' = order q1 w.s ++ [c] := by unfold order; rw [hcont]; simp
          have hcap : (s'.queues q1).cap = (w.s.queues q1).cap := by
            have := congrArg Queue.cap e3
            rw [hq'] at this; exact this
          have hoth : OthersSame q1 w ⟨s', w.live⟩ := by
            intro p hp hpl
            refine ⟨?_, ?_⟩
            · rw [e2.content hpl, hr.content hpl, e4 p hp hpl]
            · exact congrArg Queue.cap (e4 p hp hpl)
          have hih := ih (l1 ++ [a]) ⟨s', w.live⟩ (upd ids q1 (ids q1 ++ w.s.next :: [])) m' B' f hstep e2 hq hq1 (by rw [hidq]; exact hi')
            (by rw [htail.1]; exact h2') (by simpa using hf) (by
              intro m hm hkm
              simp only [hmem2] at hm
              simp only [hord]
              intro hin
              rcases List.mem_append.1 hin with h3 | h3
              · exact hnew m (by simp only [List.map_cons]; exact List.mem_cons_of_mem _ hm) hkm h3
              · simp at h3
                -- the components of a chain are different
                obtain ⟨n, hn, hnm⟩ := List.mem_map.1 hm
                have hnin : n ∈ ids q := by rw [hi]; simp [hn]
                obtain ⟨d, hd⟩ := Option.isSome_iff_exists.1 (hr.comp q hq n hnin)
                have hdc : d = c := by rw [← hnm] at h3; simpa [mem, hd] using h3
                have e1 := (hr.qm c q a).2 ⟨hq, hain, hc⟩
                have e2 := (hr.qm c q n).2 ⟨hq, hnin, by rw [hd, hdc]⟩
                rw [e1] at e2
                have : a = n := Option.some.inj e2
                have hnd := hr.nodup q hq
                unfold ring at hnd
                rw [List.nodup_cons, List.nodup_append, hi, List.nodup_append] at hnd
                have := hnd.2.1.2.1
                rw [List.nodup_cons] at this
                subst_vars
                exact this.1 hn)
          simp only [hmem2, htail.1, hcap, hord, e5] at hih
          have hfit : Fits (w.s.queues q1).cap (order q1 w.s ++ [c]).length (picked keep pr w.s.now (l2.map (mem w.s))).length ↔
              Fits (w.s.queues q1).cap (order q1 w.s).length (⟨c, pr (w.s.nodes a).prio, w.s.now⟩ :: picked keep pr w.s.now (l2.map (mem w.s))).length := by
            unfold Fits
            simp only [List.length_append, List.length_cons, List.length_nil]
            have hroom' : (((order q1 w.s).length + 1 : Nat) : Rat) ≤ ((w.s.queues q1).cap : ETime) := by
              have := hroom; unfold Queue.Room at this; rw [hlen] at this; exact this
            generalize (picked keep pr w.s.now (l2.map (mem w.s))).length = k
            constructor
            · rintro (h0 | h0)
              · right; rw [h0]; exact hroom'
              · right
                have e : (order q1 w.s).length + (0 + 1) + k = (order q1 w.s).length + (k + 1) := by omega
                rw [← e]; exact h0
            · rintro (h0 | h0)
              · omega
              · right
                have e : (order q1 w.s).length + (0 + 1) + k = (order q1 w.s).length + (k + 1) := by omega
                rw [e]; exact h0
          rw [hfit] at hih
          refine ⟨fun hx => ?_, hih.2⟩
          obtain ⟨s2, g1, g2⟩ := hih.1 hx
          refine ⟨s2, g1, g2.reach, rfl, g2.now.trans e5, ?_, g2.cap.trans hcap, hoth.trans g2.others rfl⟩
          rw [g2.cont]; simp only [hcont]; simp
      · rw [if_neg hk]
        simp only
        have hl := (hr.toWf.link hq (l1 := l1 ++ [a]) (A := (w.s.queues q).head :: l1) (m1 := a) hi' (by simp) h2').1
        rw [hl]
        simp only
        have hpk : picked keep pr w.s.now ((a :: l2).map (mem w.s)) = picked keep pr w.s.now (l2.map (mem w.s)) := by
          simp [picked, hmc, hk]
        rw [hpk]
        exact ih (l1 ++ [a]) w ids m' B' f hw hr hq hq1 hi' h2' (by simpa using hf)
          (fun m hm => hnew m (by simp only [List.map_cons]; exact List.mem_cons_of_mem _ hm))

theorem copyFrom_spec (keep pr) {q q1 : QId} {w : PW} (hne : q ≠ q1) (hw : PReach w) (hq : q ∈ w.live) (hq1 : q1 ∈ w.live)
    (hnew : ∀ c ∈ order q w.s, keep c → c ∉ order q1 w.s) :
    (Fits (w.s.queues q1).cap (order q1 w.s).length (picked keep pr w.s.now (content q w.s)).length →
      ∃ s', copyFrom keep pr q q1 w.s = .ok s' ∧ Filled w ⟨s', w.live⟩ q1 (picked keep pr w.s.now (content q w.s))) ∧
    (¬ Fits (w.s.queues q1).cap (order q1 w.s).length (picked keep pr w.s.now (content q w.s)).length →
      ∃ s', copyFrom keep pr q q1 w.s = .err .queueFull s') := by
  obtain ⟨ids, hr, _⟩ := hw.rep
  obtain ⟨m, B, hm⟩ := cons_of_snoc (w.s.queues q).tail (ids q)
  unfold copyFrom
  rw [hr.toWf.head_succ hq hm]
  have hc : content q w.s = (ids q).map (mem w.s) := hr.content hq
  rw [hc]
  refine copyLoop_spec keep pr hne (ids q) [] w ids m B w.s.next hw hr hq hq1 (by simp) hm (by have := hr.toWf.fuel hq; omega) ?_
  intro x hx
  refine hnew x.c ?_
  unfold order; rw [hc]; exact List.mem_map_of_mem hx

theorem newQueue_step {w : PW} (hw : PReach w) {q1} (hq1 : q1 ∉ w.live) :
    PReach ⟨newQueue q1 ⊤ w.s, q1 :: w.live⟩ ∧ content q1 (newQueue q1 ⊤ w.s) = [] ∧ (∀ p ∈ w.live, content p (newQueue q1 ⊤ w.s) = content p w.s) ∧
      ((newQueue q1 ⊤ w.s).queues q1).cap = ⊤ ∧ (newQueue q1 ⊤ w.s).now = w.s.now := by
  obtain ⟨ids, hr, hn, _⟩ := hw.rep
  have hr' := newQueue_rep hr hq1 ⊤ (hn q1 hq1)
  refine ⟨.step (.newQueue q1 ⊤) none hw (.create q1 ⊤ hq1), ?_, ?_, ?_, rfl⟩
  · rw [hr'.content (.inl rfl)]; simp [abs, hn q1 hq1]
  · intro p hp
    rw [hr'.content (.inr hp), hr.content hp]
    simp only [abs]
    refine List.map_congr_left fun n hn' => mem_congr ?_
    have hlt := hr.lt p hp n (mem_ring hn')
    have : (newQueue q1 ⊤ w.s).nodes n = w.s.nodes n := by
      unfold newQueue
      simp only [setQ_nodes, setN_nodes]
      rw [if_neg (nat_ne hlt), if_neg (ne_of_lt hlt)]
    rw [this]; exact ⟨rfl, rfl, rfl⟩
  · simp [newQueue, setQ_queues]

theorem newCopy_step {w : PW} (hw : PReach w) {q1} (hq1 : q1 ∉ w.live) (cap) :
    PReach ⟨newCopy q1 cap w.s, q1 :: w.live⟩ ∧ content q1 (newCopy q1 cap w.s) = [] ∧ (∀ p ∈ w.live, content p (newCopy q1 cap w.s) = content p w.s) ∧
      ((newCopy q1 cap w.s).queues q1).cap = cap ∧ (newCopy q1 cap w.s).now = w.s.now := by
  obtain ⟨ids, hr, hn, _⟩ := hw.rep
  have hr' := newCopy_rep hr hq1 cap (hn q1 hq1)
  refine ⟨.step (.newCopy q1 cap) none hw (.createCopy q1 cap hq1), ?_, ?_, ?_, rfl⟩
  · rw [hr'.content (.inl rfl)]; simp [abs, hn q1 hq1]
  · intro p hp
    rw [hr'.content (.inr hp), hr.content hp]
    simp only [abs]
    refine List.map_congr_left fun n hn' => mem_congr ?_
    have hlt := hr.lt p hp n (mem_ring hn')
    have : (newCopy q1 cap w.s).nodes n = w.s.nodes n := by
      unfold newCopy newQueue
      simp only [setQ_nodes, setN_nodes]
      rw [if_neg (nat_ne hlt), if_neg (ne_of_lt hlt)]
    rw [this]; exact ⟨rfl, rfl, rfl⟩
  · simp [newCopy, setQ_queues]

theorem fits_top (len n : Nat) : Fits ⊤ len n := .inr le_top

theorem picked_c (keep pr now l) : (picked keep pr now l).map QMem.c = (l.map QMem.c).filter keep := by
  induction l with
  | nil => rfl
  | cons a l ih =>
    unfold picked at *
    by_cases h : keep a.c <;> simp [h, ih]

/-- a new queue, filled from one queue -/
theorem make1 (keep pr) {w : PW} (hw : PReach w) {q q1} (hq : q ∈ w.live) (hq1 : q1 ∉ w.live) :
    ∃ s', copyFrom keep pr q q1 (newQueue q1 ⊤ w.s) = .ok s' ∧ PReach ⟨s', q1 :: w.live⟩ ∧ content q1 s' = picked keep pr w.s.now (content q w.s) ∧
      (∀ p ∈ w.live, content p s' = content p w.s) ∧ s'.now = w.s.now ∧ (s'.queues q1).cap = ⊤ := by
  obtain ⟨n1, n2, n3, n4, n5⟩ := newQueue_step hw hq1
  have hne : q ≠ q1 := fun h => hq1 (h ▸ hq)
  have hspec := copyFrom_spec keep pr hne n1 (List.mem_cons_of_mem _ hq) (List.mem_cons_self ..) (by
    intro c _ _; unfold order; simp [n2])
  simp only [n3 q hq, n4, n5] at hspec
  obtain ⟨s', e1, e2⟩ := hspec.1 (fits_top _ _)
  refine ⟨s', e1, e2.reach, ?_, ?_, e2.now.trans n5, e2.cap.trans n4⟩
  · have := e2.cont; simp only [n2, List.nil_append] at this; exact this
  · intro p hp
    have := (e2.others p (fun h => hq1 (h ▸ hp)) (List.mem_cons_of_mem _ hp)).1
    exact this.trans (n3 p hp)

/-- a new queue, filled from two queues -/
theorem make2 (keep1 keep2 pr) {w : PW} (hw : PReach w) {q qb q1} (hq : q ∈ w.live) (hqb : qb ∈ w.live) (hq1 : q1 ∉ w.live)
    (hk : ∀ c ∈ order qb w.s, keep2 c → c ∈ order q w.s → ¬ keep1 c) :
    ∃ s', (copyFrom keep1 pr q q1 (newQueue q1 ⊤ w.s)).andThen (copyFrom keep2 pr qb q1) = .ok s' ∧ PReach ⟨s', q1 :: w.live⟩ ∧
      content q1 s' = picked keep1 pr w.s.now (content q w.s) ++ picked keep2 pr w.s.now (content qb w.s) ∧
      (∀ p ∈ w.live, content p s' = content p w.s) ∧ s'.now = w.s.now := by
  obtain ⟨s1, e1, e2, e3, e4, e5, e6⟩ := make1 keep1 pr hw hq hq1
  have hne : qb ≠ q1 := fun h => hq1 (h ▸ hqb)
  have hspec := copyFrom_spec keep2 pr hne e2 (List.mem_cons_of_mem _ hqb) (List.mem_cons_self ..) (by
    intro c hc hkc hin
    unfold order at hc hin
    simp only [e4 qb hqb] at hc
    simp only [e3, picked_c] at hin
    have := List.mem_filter.1 hin
    exact hk c hc hkc this.1 this.2)
  simp only [e4 qb hqb, e6, e5] at hspec
  obtain ⟨s', f1, f2⟩ := hspec.1 (fits_top _ _)
  refine ⟨s', ?_, f2.reach, ?_, ?_, f2.now.trans e5⟩
  · rw [e1]; exact f1
  · have := f2.cont; simp only [e3] at this; exact this
  · intro p hp
    have := (f2.others p (fun h => hq1 (h ▸ hp)) (List.mem_cons_of_mem _ hp)).1
    exact this.trans (e4 p hp)

/-! ## clear, extend -/

theorem leave_ptr {s s' : PS} {c q mx m1 m2} (hqm : s.qm c q = some mx) (h1 : (s.nodes mx).pred = some m1) (h2 : (s.nodes mx).succ = some m2)
    (hne : m1 ≠ mx) (h : leave c q s = .ok s') : (s'.nodes m1).succ = some m2 ∧ (∀ p, (s'.queues p).head = (s.queues p).head ∧ (s'.queues p).tail = (s.queues p).tail) := by
  unfold leave at h
  rw [hqm] at h
  simp only [orAttr, h1, h2] at h
  cases h
  constructor
  · simp only [setQ_nodes, setQm_nodes, setN_nodes]
    rw [if_neg hne]
    split <;> simp
  · intro p
    simp only [setQ_queues, setQm_queues]
    split <;> exact ⟨rfl, rfl⟩

theorem clearLoop_spec {q : QId} : ∀ (cs : List CId) (w : PW) (mx : NId) (f : Nat), PReach w → q ∈ w.live → order q w.s = cs →
    (w.s.nodes (w.s.queues q).head).succ = some mx → cs.length < f →
    ∃ s', clearLoop q (w.s.queues q).tail f mx w.s = .ok s' ∧ PReach ⟨s', w.live⟩ ∧ content q s' = [] ∧ OthersSame q w ⟨s', w.live⟩ ∧
      s'.now = w.s.now ∧ (s'.queues q).cap = (w.s.queues q).cap := by
  intro cs
  induction cs with
  | nil =>
    intro w mx f hw hq ho hs hf
    cases f with
    | zero => simp at hf
    | succ f =>
      obtain ⟨ids, hr, hn, _⟩ := hw.rep
      have hi : ids q = [] := by
        have := congrArg List.length (hr.order_comp hq); rw [ho] at this; simpa using this
      obtain ⟨m, B, hm⟩ := cons_of_snoc (w.s.queues q).tail (ids q)
      have := hr.toWf.head_succ hq hm
      rw [hs] at this; cases this
      rw [hi] at hm
      have : mx = (w.s.queues q).tail := (List.cons.inj hm).1.symm
      unfold clearLoop
      rw [if_pos this]
      refine ⟨w.s, rfl, hw, ?_, OthersSame.refl _ _, rfl, rfl⟩
      rw [hr.content hq]; simp [abs, hi]
  | cons c cs ih =>
    intro w mx f hw hq ho hs hf
    cases f with
    | zero => simp at hf
    | succ f =>
      obtain ⟨ids, hr, hn, hinv⟩ := hw.rep
      have hoc := hr.order_comp hq
      rw [ho] at hoc
      cases hi : ids q with
      | nil => rw [hi] at hoc; simp at hoc
      | cons a l =>
        rw [hi] at hoc
        simp only [List.map_cons, List.cons.injEq] at hoc
        obtain ⟨m, B, hm⟩ := cons_of_snoc (w.s.queues q).tail (ids q)
        have hsu := hr.toWf.head_succ hq hm
        rw [hs] at hsu; cases hsu
        have hma : mx = a := by rw [hi] at hm; exact (List.cons.inj hm).1.symm
        subst hma
        have hain : mx ∈ ids q := by rw [hi]; simp
        have hnd := hr.nodup q hq
        unfold ring at hnd
        rw [List.nodup_cons, List.nodup_append] at hnd
        have hnt : mx ≠ (w.s.queues q).tail := fun hh => hnd.2.2.2 mx hain mx (by simp [hh]) rfl
        have hnh : (w.s.queues q).head ≠ mx := fun hh => hnd.1 (by rw [hh]; simp [hain])
        obtain ⟨m', B', h2'⟩ := cons_of_snoc (w.s.queues q).tail l
        have hl := (hr.toWf.link hq (l1 := [mx]) (l2 := l) (A := [(w.s.queues q).head]) (m1 := mx) hi (by simp) h2').1
        have hp := (hr.toWf.link hq (l1 := []) (l2 := mx :: l) (A := []) (m1 := (w.s.queues q).head) (m2 := mx) (B := l ++ [(w.s.queues q).tail]) hi (by simp) rfl).2
        have hqm := (hr.qm c q mx).2 ⟨hq, hain, hoc.1⟩
        unfold clearLoop
        rw [if_neg hnt]
        simp only [hoc.1, hl]
        have href := leave_refines hr hq c
        have hmem : (abs w.s ids q).mem = mem w.s mx :: l.map (mem w.s) := by simp [abs, hi]
        have hmc : (mem w.s mx).c = c := by simp [mem, hoc.1]
        have hfind : (abs w.s ids q).find c = some (mem w.s mx) := by
          unfold Queue.find; rw [hmem]; simp [hmc]
        unfold Queue.leave at href
        rw [hfind] at href
        simp only at href
        obtain ⟨s1, ids1, a1, a2, a3, a4, a5, a6⟩ := href
        obtain ⟨b1, b2⟩ := leave_ptr hqm hp hl hnh a1
        rw [a1]
        simp only [PR.andThen]
        have hw1 : PReach ⟨s1, w.live⟩ := .step (.leave c q) none hw (.op _ q _ rfl hq a1)
        have hord : order q s1 = cs := by
          unfold order; rw [a2.content hq, a3]
          simp only [hmem, List.erase_cons_head]
          have : (abs w.s ids q).mem.map QMem.c = c :: cs := by
            rw [← hr.content hq]; exact ho
          rw [hmem] at this
          exact (List.cons.inj this).2
        have hoth : OthersSame q w ⟨s1, w.live⟩ := by
          intro p hp hpl
          exact ⟨by rw [a2.content hpl, hr.content hpl, a4 p hp hpl], congrArg Queue.cap (a4 p hp hpl)⟩
        obtain ⟨s', g1, g2, g3, g4, g5, g6⟩ := ih ⟨s1, w.live⟩ m' f hw1 hq hord (by rw [(b2 q).1]; exact b1) (by simpa using hf)
        simp only [(b2 q).2] at g1
        refine ⟨s', g1, g2, g3, hoth.trans g4 rfl, g5.trans a5, g6.trans ?_⟩
        have := congrArg Queue.cap a3
        exact this

theorem clear_spec {w : PW} (hw : PReach w) {q} (hq : q ∈ w.live) :
    ∃ s', clear q w.s = .ok s' ∧ PReach ⟨s', w.live⟩ ∧ content q s' = [] ∧ OthersSame q w ⟨s', w.live⟩ ∧
      s'.now = w.s.now ∧ (s'.queues q).cap = (w.s.queues q).cap := by
  obtain ⟨ids, hr, hn, hinv⟩ := hw.rep
  obtain ⟨m, B, hm⟩ := cons_of_snoc (w.s.queues q).tail (ids q)
  unfold clear
  have hs := hr.toWf.head_succ hq hm
  rw [hs]
  refine clearLoop_spec (order q w.s) w m w.s.next hw hq rfl hs ?_
  have h1 := congrArg List.length (hr.order_comp hq)
  have h2 := hr.toWf.fuel hq
  simp at h1; omega

/-- what `extend` adds -/
def extended (l : List CId) : List CId → List CId
  | [] => l
  | c :: cs => if c ∈ l then extended l cs else extended (l ++ [c]) cs

theorem extended_eq {l cs : List CId} (hn : cs.Nodup) : extended l cs = l ++ cs.filter (fun c => decide (c ∉ l)) := by
  induction cs generalizing l with
  | nil => simp [extended]
  | cons c cs ih =>
    rw [List.nodup_cons] at hn
    unfold extended
    split
    · rename_i hc; rw [ih hn.2]; simp [hc]
    · rename_i hc
      rw [ih hn.2, List.filter_cons, if_pos (by simpa using hc), List.append_assoc, List.singleton_append]
      congr 2
      refine List.filter_congr fun x hx => ?_
      have : x ≠ c := fun h => hn.1 (h ▸ hx)
      simp [this]

theorem extendLoop_spec {q : QId} : ∀ (cs : List CId) (w : PW), PReach w → q ∈ w.live → cs.Nodup → ∀ s', extendLoop q cs w.s = .ok s' →
    PReach ⟨s', w.live⟩ ∧ order q s' = order q w.s ++ cs.filter (fun c => decide (c ∉ order q w.s)) ∧ OthersSame q w ⟨s', w.live⟩ := by
  intro cs
  induction cs with
  | nil => intro w hw hq hn s' h; cases h; exact ⟨hw, by simp, OthersSame.refl _ _⟩
  | cons c cs ih =>
    intro w hw hq hn s' h
    obtain ⟨ids, hr, _, _⟩ := hw.rep
    unfold extendLoop at h
    rw [List.nodup_cons] at hn
    split at h
    · rename_i hc
      have hc' := (hr.mem_order hq c).2 hc
      obtain ⟨h1, h2, h3⟩ := ih w hw hq hn.2 s' h
      exact ⟨h1, by rw [h2]; simp [hc'], h3⟩
    · rename_i hc
      have hc' : c ∉ order q w.s := fun hh => hc ((hr.mem_order hq c).1 hh)
      have href := enter_refines hr hq c
      cases hen : enter c q none w.s with
      | err e s1 => rw [hen] at h; cases h
      | ok s1 =>
        rw [hen] at h href
        simp only [PR.andThen] at h
        cases hl : (abs w.s ids q).enter w.s.now c with
        | notOk e => rw [hl] at href; cases href
        | ok q' =>
          rw [hl] at href
          obtain ⟨s2, ids1, a1, a2, a3, a4, a5, a6⟩ := href
          cases a1
          obtain ⟨l1, l2, x, he, _, hl2⟩ := Queue.enter_ok hl
          have hw1 : PReach ⟨s1, w.live⟩ := .step (.enter c q) none hw (.op _ q _ rfl hq hen)
          have hord : order q s1 = order q w.s ++ [c] := by
            unfold order
            rw [a2.content hq, a3, he.eq, hr.content hq, he.mem, hl2]
            simp [he.xc]
          have hoth : OthersSame q w ⟨s1, w.live⟩ := by
            intro p hp hpl
            exact ⟨by rw [a2.content hpl, hr.content hpl, a4 p hp hpl], congrArg Queue.cap (a4 p hp hpl)⟩
          obtain ⟨h1, h2, h3⟩ := ih ⟨s1, w.live⟩ hw1 hq hn.2 s' h
          refine ⟨h1, ?_, hoth.trans h3 rfl⟩
          rw [h2]
          simp only [hord]
          rw [List.filter_cons, if_pos (by simpa using hc'), List.append_assoc, List.singleton_append]
          congr 2
          refine List.filter_congr fun y hy => ?_
          have : y ≠ c := fun h => hn.1 (h ▸ hy)
          simp [this]

end Chain
end Verif
