import Verif.ChainObs

/-!
# Loops over a queue that is changed by the loop body
-/

namespace Verif
namespace Chain
open Queue (QR)

/-- the keys of the dictionary `_iter_touched` -/
def keys (q : QId) (s : PS) : List Nat := (s.queues q).touched.map Prod.fst

/-- keys are unique and have been handed out -/
def KeyInv (s : PS) : Prop := ∀ q, (keys q s).Nodup ∧ ∀ k ∈ keys q s, k ≤ (s.queues q).iterSeq

theorem touchAll_keys (l : List (Nat × Bool)) : (touchAll l).map Prod.fst = l.map Prod.fst := by
  induction l with
  | nil => rfl
  | cons a l ih => simp_all [touchAll]

theorem Evo.keys {s ids s' ids' q lv} (h : Evo s ids s' ids' q lv) (p) : keys p s' = keys p s := by
  unfold Chain.keys
  rcases h.touched p with e | e
  · rw [e]
  · rw [e, touchAll_keys]

/-- the effect of one step of an iterator on the touched flags -/
theorem iterNext_keys (it : It) (s : PS) : (keys it.q (iterNext it s).2.2).Sublist (keys it.q s) ∧
    (∀ k, k ≠ it.seq → ∀ b, (k, b) ∈ (s.queues it.q).touched → (k, b) ∈ ((iterNext it s).2.2.queues it.q).touched) := by
  have hmap : ∀ (l : List (Nat × Bool)), (l.map (fun p => if p.1 = it.seq then (p.1, false) else p)).map Prod.fst = l.map Prod.fst := by
    intro l
    rw [List.map_map]
    refine List.map_congr_left fun p _ => ?_
    simp only [Function.comp]; split <;> rfl
  unfold iterNext
  split
  · exact ⟨List.Sublist.refl _, fun _ _ _ h => h⟩
  · split
    rename_i it' s' heq
    have hs' : it'.q = it.q ∧ it'.seq = it.seq ∧ keys it.q s' = keys it.q s ∧
        ∀ k, k ≠ it.seq → ∀ b, (k, b) ∈ (s.queues it.q).touched → (k, b) ∈ (s'.queues it.q).touched := by
      split at heq
      · cases heq
        refine ⟨rfl, rfl, ?_, ?_⟩
        · unfold keys; simp only [refresh, setQ_queues, if_true]; exact hmap _
        · intro k hk b hb
          simp only [refresh, setQ_queues, if_true]
          exact List.mem_map.2 ⟨(k, b), hb, by simp [hk]⟩
      · cases heq; exact ⟨rfl, rfl, rfl, fun _ _ _ h => h⟩
    obtain ⟨hq, hsq, hk, hb⟩ := hs'
    split
    · exact ⟨by rw [hk], hb⟩
    · constructor
      · rw [← hk]
        unfold keys
        simp only [hq, setQ_queues, if_true]
        exact List.filter_sublist.map _
      · intro k hkn b hkb
        simp only [hq, setQ_queues, if_true]
        exact List.mem_filter.2 ⟨hb k hkn b hkb, by simp [hsq, hkn]⟩

theorem setQ_mapT_other (s : PS) (q f p) (h : p ≠ q) : (s.setQ q (PQ.mapT f)).queues p = s.queues p := by
  rw [setQ_queues, if_neg h]

theorem iterNext_other (it : It) (s : PS) (p) (h : p ≠ it.q) : (iterNext it s).2.2.queues p = s.queues p := by
  obtain ⟨f, hf⟩ := iterNext_state it s
  rw [hf]; exact setQ_mapT_other s it.q f p h

theorem iterNext_nodes (it : It) (s : PS) : (iterNext it s).2.2.nodes = s.nodes ∧ (iterNext it s).2.2.next = s.next ∧
    ∀ p, ((iterNext it s).2.2.queues p).iterSeq = (s.queues p).iterSeq := by
  obtain ⟨f, hf⟩ := iterNext_state it s
  rw [hf]
  refine ⟨rfl, rfl, fun p => ?_⟩
  rw [setQ_queues]; split <;> rfl

theorem keyInv_step {w w' o e} (hr : ∃ ids, Rep w.s w.Live ids) (hk : KeyInv w.s) (h : PStep w o w' e) : KeyInv w'.s := by
  cases h with
  | create q cap hq =>
    intro p
    by_cases hp : p = q
    · subst hp; unfold keys; simp [newQueue, setQ_queues]
    · have : (newQueue q cap w.s).queues p = w.s.queues p := by simp [newQueue, setQ_queues, hp]
      unfold keys; simp only [this]; exact hk p
  | createCopy q cap hq =>
    intro p
    by_cases hp : p = q
    · subst hp; unfold keys; simp [newCopy, newQueue, setQ_queues]
    · have : (newCopy q cap w.s).queues p = w.s.queues p := by simp [newCopy, newQueue, setQ_queues, hp]
      unfold keys; simp only [this]; exact hk p
  | tick d hd => exact hk
  | raise o q e s' ho hq hp =>
    obtain ⟨ids, hr⟩ := hr
    rw [raise_same hr ho hq hp]; exact hk
  | op o q s' ho hq hp =>
    obtain ⟨ids, hr⟩ := hr
    by_cases hop : o.isOp
    · have := prun1_refines hr ho hq hop
      unfold Refines at this
      split at this
      · rw [hp] at this; cases this
      · obtain ⟨s2, ids', a, b, d, e, f, g⟩ := this
        rw [hp] at a; cases a
        intro p
        rw [g.keys, g.iterSeq]; exact hk p
    · cases o <;> simp only [POp.queue, Option.some.injEq, reduceCtorEq] at ho <;> simp only [POp.isOp, not_true] at hop <;> subst ho
      · rename_i q rev
        cases hp
        intro p
        by_cases hpq : p = q
        · subst hpq
          unfold keys iterNew
          simp only [setQ_queues, if_true, List.map_append, List.map_cons, List.map_nil]
          have := hk p
          constructor
          · rw [List.nodup_append]
            refine ⟨this.1, by simp, ?_⟩
            intro a ha b hb
            have := this.2 a ha
            simp at hb; omega
          · intro k hkk
            rcases List.mem_append.1 hkk with h1 | h1
            · have := this.2 k h1; omega
            · simp at h1; omega
        · have : (iterNew q rev w.s).2.queues p = w.s.queues p := by simp [iterNew, setQ_queues, hpq]
          unfold keys; simp only [this]; exact hk p
      · rename_i it
        cases hp
        intro p
        by_cases hpq : p = it.q
        · subst hpq
          have h1 := (iterNext_keys it w.s).1
          have := hk it.q
          refine ⟨this.1.sublist h1, fun k hkk => ?_⟩
          rw [(iterNext_nodes it w.s).2.2]
          exact this.2 k (h1.subset hkk)
        · have e := iterNext_other it w.s p hpq
          unfold keys; simp only [e]; exact hk p

theorem PReach.keyInv {w} (h : PReach w) : KeyInv w.s := by
  induction h with
  | empty => intro q; simp [keys, PW.empty]
  | step o e h hs ih =>
    obtain ⟨ids, hr, _⟩ := h.rep
    exact keyInv_step ⟨ids, hr⟩ ih hs

/-- the component that leaves queue `q` in a step -/
def leaves (q : QId) : POp → Option Err → List CId
  | .leave c q', none => if q' = q then [c] else []
  | _, _ => []

/-- an operation that isn't a step of the given iterator -/
def foreign (it : It) : POp → Prop
  | .iterNext it' => it'.q ≠ it.q ∨ it'.seq ≠ it.seq
  | _ => True

/-- what one step of the loop body means for a running iterator over `q` with number `seq` -/
structure BodyStep (s : PS) (ids : QId → List NId) (s' : PS) (ids' : QId → List NId) (q : QId) (seq : Nat) (lv : List CId) : Prop where
  next : s.next ≤ s'.next
  comp : ∀ n, n < s.next → (s'.nodes n).comp = (s.nodes n).comp ∨
    ((s'.nodes n).comp = none ∧ ∀ c, (s.nodes n).comp = some c → n ∈ ids q → c ∈ lv)
  keep : ∀ n, n ∈ ids q → n ∈ ids' q ∨ (s'.nodes n).comp = none
  new : ∀ n, n ∈ ids' q → n ∈ ids q ∨ (s.next ≤ n ∧ ∀ b, (seq, b) ∈ (s.queues q).touched → (seq, true) ∈ (s'.queues q).touched)
  flag : ∀ b, (seq, b) ∈ (s.queues q).touched → (seq, b) ∈ (s'.queues q).touched ∨ (seq, true) ∈ (s'.queues q).touched

theorem mem_touchAll {l : List (Nat × Bool)} {k b} (h : (k, b) ∈ l) : (k, true) ∈ touchAll l := by
  unfold touchAll
  exact List.mem_map.2 ⟨(k, b), h, rfl⟩

theorem body_step {w w' o e} {ids} (hr : Rep w.s w.Live ids) (hn : ∀ q, q ∉ w.live → ids q = []) (h : PStep w o w' e)
    {it : It} (hf : foreign it o) (hq : it.q ∈ w.live) :
    ∃ ids', Rep w'.s w'.Live ids' ∧ (∀ q, q ∉ w'.live → ids' q = []) ∧ BodyStep w.s ids w'.s ids' it.q it.seq (leaves it.q o e) ∧ it.q ∈ w'.live := by
  cases h with
  | create q cap hq' =>
    refine ⟨ids, ?_, ?_, ⟨?_, ?_, fun _ h => .inl h, fun _ h => .inl h, ?_⟩, List.mem_cons_of_mem _ hq⟩
    · have := newQueue_rep hr hq' cap (hn q hq')
      have e : (fun p => p = q ∨ w.Live p) = PW.Live ⟨newQueue q cap w.s, q :: w.live⟩ := by
        funext p; simp [PW.Live]
      exact e ▸ this
    · intro p hp
      simp only [List.mem_cons, not_or] at hp
      exact hn p hp.2
    · simp [newQueue]
    · intro n hlt
      left
      unfold newQueue
      simp only [setQ_nodes, setN_nodes]
      rw [if_neg (nat_ne hlt), if_neg (ne_of_lt hlt)]
    · intro b hb
      left
      have : it.q ≠ q := fun h => hq' (h ▸ hq)
      have e : (newQueue q cap w.s).queues it.q = w.s.queues it.q := by simp [newQueue, setQ_queues, this]
      simp only [e]; exact hb
  | createCopy q cap hq' =>
    refine ⟨ids, ?_, ?_, ⟨?_, ?_, fun _ h => .inl h, fun _ h => .inl h, ?_⟩, List.mem_cons_of_mem _ hq⟩
    · have := newCopy_rep hr hq' cap (hn q hq')
      have e : (fun p => p = q ∨ w.Live p) = PW.Live ⟨newCopy q cap w.s, q :: w.live⟩ := by
        funext p; simp [PW.Live]
      exact e ▸ this
    · intro p hp
      simp only [List.mem_cons, not_or] at hp
      exact hn p hp.2
    · simp [newCopy, newQueue]
    · intro n hlt
      left
      unfold newCopy newQueue
      simp only [setQ_nodes, setN_nodes]
      rw [if_neg (nat_ne hlt), if_neg (ne_of_lt hlt)]
    · intro b hb
      left
      have : it.q ≠ q := fun h => hq' (h ▸ hq)
      have e : (newCopy q cap w.s).queues it.q = w.s.queues it.q := by simp [newCopy, newQueue, setQ_queues, this]
      simp only [e]; exact hb
  | tick d hd =>
    exact ⟨ids, ⟨⟨hr.chain, hr.nodup, hr.disj, hr.lt⟩, hr.len, hr.hd, hr.tl, hr.qm, hr.comp, hr.avail⟩, hn,
      ⟨le_refl _, fun _ _ => .inl rfl, fun _ h => .inl h, fun _ h => .inl h, fun _ h => .inl h⟩, hq⟩
  | raise o q e s' ho hq' hp =>
    rw [raise_same hr ho hq' hp]
    exact ⟨ids, hr, hn, ⟨le_refl _, fun _ _ => .inl rfl, fun _ h => .inl h, fun _ h => .inl h, fun _ h => .inl h⟩, hq⟩
  | op o q s' ho hq' hp =>
    by_cases hop : o.isOp
    · have := prun1_refines hr ho hq' hop
      unfold Refines at this
      split at this
      · rw [hp] at this; cases this
      · obtain ⟨s2, ids', a, b, d, e, f, g⟩ := this
        rw [hp] at a; cases a
        refine ⟨ids', b, ?_, ⟨g.next, ?_, fun n hn => g.keep _ n hn, ?_, ?_⟩, hq⟩
        · intro p hpl
          rw [List.eq_nil_iff_forall_not_mem]
          intro n hn'
          rcases g.new p n hn' with hn' | ⟨rfl, _⟩
          · rw [hn p hpl] at hn'; cases hn'
          · exact hpl hq'
        · intro n hlt
          rcases g.comp n hlt with h1 | ⟨h1, h2, c, h3, h4⟩
          · exact .inl h1
          · refine .inr ⟨h1, ?_⟩
            intro c' hc' hni
            rw [h4] at hc'; cases hc'
            have hqq : q = it.q := by
              by_contra hne
              exact hr.disj q it.q hq' hq hne n (mem_ring h2) (mem_ring hni)
            cases o <;> simp only [POp.leaver, reduceCtorEq, Option.some.injEq] at h3
            subst h3
            simp only [POp.queue, Option.some.injEq] at ho
            subst ho
            simp [leaves, hqq]
        · intro n hn'
          rcases g.new _ n hn' with h1 | ⟨h1, h2, h3⟩
          · exact .inl h1
          · refine .inr ⟨h2, fun b hb => ?_⟩
            rw [h1, h3]
            exact mem_touchAll (h1 ▸ hb)
        · intro b hb
          rcases g.touched it.q with h1 | h1
          · left; rw [h1]; exact hb
          · right; rw [h1]; exact mem_touchAll hb
    · cases o <;> simp only [POp.queue, Option.some.injEq, reduceCtorEq] at ho <;> simp only [POp.isOp, not_true] at hop <;> subst ho
      · rename_i q rev
        cases hp
        refine ⟨ids, (iterNew_rep hr q rev).1, hn, ⟨le_refl _, fun _ _ => .inl rfl, fun _ h => .inl h, fun _ h => .inl h, ?_⟩, hq⟩
        intro b hb
        left
        unfold iterNew
        simp only [setQ_queues]
        split
        · rename_i hqq; simp [hb]
        · exact hb
      · rename_i it'
        cases hp
        have hnn := iterNext_nodes it' w.s
        refine ⟨ids, (iterNext_rep hr it').1, hn, ⟨le_of_eq hnn.2.1.symm, fun n _ => .inl (by simp only [hnn.1]), fun _ h => .inl h, fun _ h => .inl h, ?_⟩, hq⟩
        intro b hb
        left
        by_cases hqq : it.q = it'.q
        · have hs : it.seq ≠ it'.seq := by
            rcases hf with h1 | h1
            · exact absurd hqq.symm h1
            · exact fun h => h1 h.symm
          have := (iterNext_keys it' w.s).2 it.seq hs b
          rw [← hqq] at this
          exact this hb
        · have e := iterNext_other it' w.s it.q hqq
          simp only [e]; exact hb

/-- A loop `for c in q` (or `reversed(q)`) that has yielded `ys`, while the components `lv` left the queue since the start.
The loop body may do anything with any queue, including running other loops. -/
inductive Loop (q : QId) (rev : Bool) : PW → It → List CId → List CId → Prop
  | start {w} : PReach w → q ∈ w.live → Loop q rev ⟨(iterNew q rev w.s).2, w.live⟩ (iterNew q rev w.s).1 [] []
  | body {w it ys lv} (o w' e) : Loop q rev w it ys lv → PStep w o w' e → foreign it o → Loop q rev w' it ys (leaves q o e ++ lv)
  | next {w it ys lv c it' s'} : Loop q rev w it ys lv → iterNext it w.s = (some c, it', s') → Loop q rev ⟨s', w.live⟩ it' (ys ++ [c]) lv

theorem Loop.meta {q rev w it ys lv} (h : Loop q rev w it ys lv) : it.q = q ∧ it.rev = rev ∧ it.done = false ∧ q ∈ w.live := by
  induction h with
  | start h hq => exact ⟨rfl, rfl, rfl, hq⟩
  | body o w' e _ hs _ ih =>
    refine ⟨ih.1, ih.2.1, ih.2.2.1, ?_⟩
    cases hs with
    | create => exact List.mem_cons_of_mem _ ih.2.2.2
    | createCopy => exact List.mem_cons_of_mem _ ih.2.2.2
    | tick => exact ih.2.2.2
    | op => exact ih.2.2.2
    | raise => exact ih.2.2.2
  | next h hn ih =>
    unfold iterNext at hn
    rw [if_neg (by simp [ih.2.2.1])] at hn
    split at hn
    rename_i it' s' heq
    have h1 : it'.q = q ∧ it'.rev = rev ∧ it'.done = false := by
      split at heq
      · cases heq; exact ⟨ih.1, ih.2.1, ih.2.2.1⟩
      · cases heq; exact ⟨ih.1, ih.2.1, ih.2.2.1⟩
    split at hn
    · cases hn; exact ⟨h1.1, h1.2.1, h1.2.2, ih.2.2.2⟩
    · cases hn

theorem Loop.preach {q rev w it ys lv} (h : Loop q rev w it ys lv) : PReach w := by
  induction h with
  | @start w h hq => exact .step (.iterNew q rev) none h (.op _ q _ rfl hq rfl)
  | body o w' e _ hs _ ih => exact .step o e ih hs
  | @next w it ys lv c it' s' h hn ih =>
    have hm := h.meta
    refine .step (.iterNext it) none ih (.op _ it.q _ rfl (hm.1 ▸ hm.2.2.2) ?_)
    simp only [prun1, hn]

/-- what is known about the list that the iterator keeps -/
structure LInv (s : PS) (ids : QId → List NId) (it : It) (ys lv : List CId) (vis : List (NId × CId)) : Prop where
  key : ∃ b, (it.seq, b) ∈ (s.queues it.q).touched
  nodup : it.list.Nodup
  lt : ∀ n ∈ it.list, n < s.next
  all : (it.seq, true) ∉ (s.queues it.q).touched → ∀ n ∈ ids it.q, n ∈ it.list
  inq : ∀ n ∈ it.list, (s.nodes n).comp ≠ none → n ∈ ids it.q
  eqs : vis.map Prod.snd = ys
  sub : (vis.map Prod.fst).Sublist (it.list.take it.index)
  seen : ∀ p ∈ vis, (s.nodes p.1).comp = some p.2 ∨ ((s.nodes p.1).comp = none ∧ p.2 ∈ lv)
  past : ∀ n ∈ it.list.take it.index, (s.nodes n).comp = none ∨ n ∈ vis.map Prod.fst

theorem LInv.body {s s' ids ids' it ys lv vis lv'} (h : LInv s ids it ys lv vis) (hb : BodyStep s ids s' ids' it.q it.seq lv')
    (hk : KeyInv s') : LInv s' ids' it ys (lv' ++ lv) vis := by
  refine ⟨?_, h.nodup, fun n hn => lt_of_lt_of_le (h.lt n hn) hb.next, ?_, ?_, h.eqs, h.sub, ?_, ?_⟩
  · obtain ⟨b, hb'⟩ := h.key
    rcases hb.flag b hb' with h1 | h1
    · exact ⟨b, h1⟩
    · exact ⟨true, h1⟩
  · intro hnt n hn
    obtain ⟨b, hb'⟩ := h.key
    rcases hb.new n hn with h1 | ⟨_, h1⟩
    · refine h.all (fun ht => hnt ?_) n h1
      rcases hb.flag true ht with h2 | h2 <;> exact h2
    · exact absurd (h1 b hb') hnt
  · intro n hn hc
    have hlt := h.lt n hn
    have h0 : (s.nodes n).comp ≠ none := by
      rcases hb.comp n hlt with h1 | h1
      · rw [← h1]; exact hc
      · exact absurd h1.1 hc
    rcases hb.keep n (h.inq n hn h0) with h1 | h1
    · exact h1
    · exact absurd h1 hc
  · intro p hp
    have hin : p.1 ∈ it.list := (List.take_subset _ _) (h.sub.subset (List.mem_map_of_mem hp))
    rcases h.seen p hp with h1 | ⟨h1, h2⟩
    · rcases hb.comp p.1 (h.lt _ hin) with h3 | ⟨h3, h4⟩
      · left; rw [h3]; exact h1
      · right
        refine ⟨h3, List.mem_append_left _ (h4 p.2 h1 (h.inq _ hin (by simp [h1])))⟩
    · right
      refine ⟨?_, List.mem_append_right _ h2⟩
      rcases hb.comp p.1 (h.lt _ hin) with h3 | ⟨h3, _⟩
      · rw [h3]; exact h1
      · exact h3
  · intro n hn
    rcases h.past n hn with h1 | h1
    · left
      rcases hb.comp n (h.lt _ (List.take_subset _ _ hn)) with h3 | ⟨h3, _⟩
      · rw [h3]; exact h1
      · exact h3
    · exact .inr h1

theorem isTouched_iff {s it} (hk : KeyInv s) : isTouched it s = true ↔ (it.seq, true) ∈ (s.queues it.q).touched := by
  unfold isTouched
  have hn := (hk it.q).1
  unfold keys at hn
  generalize (s.queues it.q).touched = l at hn ⊢
  induction l with
  | nil => simp
  | cons a l ih =>
    rw [List.map_cons, List.nodup_cons] at hn
    obtain ⟨k, b⟩ := a
    by_cases hkk : k = it.seq
    · subst hkk
      have : (it.seq, true) ∉ l := fun h => hn.1 (List.mem_map.2 ⟨_, h, rfl⟩)
      simp [this, eq_comm]
    · simp only [List.find?_cons]
      rw [show ((k, b).1 == it.seq) = false by simpa using hkk]
      simp only
      refine (ih hn.2).trans ?_
      simp only [List.mem_cons, Prod.mk.injEq]
      constructor
      · exact .inr
      · rintro (⟨h1, _⟩ | h1)
        · exact absurd h1.symm hkk
        · exact h1

theorem addNew_spec : ∀ (l acc : List NId), acc.Nodup → (addNew acc l).Nodup ∧ (∃ r, addNew acc l = acc ++ r ∧ ∀ n ∈ r, n ∈ l) ∧ ∀ n ∈ l, n ∈ addNew acc l
  | [], acc, h => ⟨h, ⟨[], by simp [addNew], by simp⟩, by simp⟩
  | a :: l, acc, h => by
    unfold addNew
    split
    · rename_i ha
      obtain ⟨h1, ⟨r, h2, h3⟩, h4⟩ := addNew_spec l acc h
      refine ⟨h1, ⟨r, h2, fun n hn => List.mem_cons_of_mem _ (h3 n hn)⟩, ?_⟩
      intro n hn
      rcases List.mem_cons.1 hn with rfl | hn
      · rw [h2]; exact List.mem_append_left _ ha
      · exact h4 n hn
    · rename_i ha
      obtain ⟨h1, ⟨r, h2, h3⟩, h4⟩ := addNew_spec l (acc ++ [a]) (by
        rw [List.nodup_append]
        refine ⟨h, by simp, ?_⟩
        intro x hx y hy hxy
        simp at hy; subst hy; subst hxy; exact ha hx)
      refine ⟨h1, ⟨a :: r, by simpa using h2, ?_⟩, ?_⟩
      · intro n hn
        rcases List.mem_cons.1 hn with rfl | hn
        · simp
        · exact List.mem_cons_of_mem _ (h3 n hn)
      · intro n hn
        rcases List.mem_cons.1 hn with rfl | hn
        · rw [h2]; simp
        · exact h4 n hn

theorem LInv.refresh {s ids it ys lv vis live} (h : LInv s ids it ys lv vis) (hr : Rep s live ids) (hq : live it.q) (hk : KeyInv s)
    (hix : it.index ≤ it.list.length) :
    LInv (refresh it s).2 ids (refresh it s).1 ys lv vis ∧ (refresh it s).1.index ≤ (refresh it s).1.list.length ∧
      (it.seq, true) ∉ ((refresh it s).2.queues it.q).touched := by
  have hsc : ∀ n, n ∈ scan it.rev it.q s ↔ n ∈ ids it.q := by
    intro n; rw [hr.toWf.scan hq]; split <;> simp
  obtain ⟨a1, ⟨r, a2, a3⟩, a4⟩ := addNew_spec (scan it.rev it.q s) (it.list.take it.index) (h.nodup.sublist (List.take_sublist _ _))
  have htk : (addNew (it.list.take it.index) (scan it.rev it.q s)).take it.index = it.list.take it.index := by
    rw [a2, List.take_append_of_le_length (by simp [hix]), List.take_take, min_self]
  have hnt : (it.seq, true) ∉ ((Chain.refresh it s).2.queues it.q).touched := by
    unfold Chain.refresh
    simp only [setQ_queues, if_true]
    intro hm
    obtain ⟨p, _, hp⟩ := List.mem_map.1 hm
    split at hp
    · simp at hp
    · rename_i hne; exact hne (by rw [hp])
  refine ⟨⟨?_, a1, ?_, ?_, ?_, h.eqs, ?_, h.seen, ?_⟩, ?_, hnt⟩
  · obtain ⟨b, hb⟩ := h.key
    refine ⟨false, ?_⟩
    unfold Chain.refresh
    simp only [setQ_queues, if_true]
    exact List.mem_map.2 ⟨_, hb, by simp⟩
  · intro n hn
    simp only [Chain.refresh] at hn ⊢
    rw [a2] at hn
    rcases List.mem_append.1 hn with hn | hn
    · exact h.lt n (List.take_subset _ _ hn)
    · exact hr.lt it.q hq n (mem_ring ((hsc n).1 (a3 n hn)))
  · intro _ n hn
    exact a4 n ((hsc n).2 hn)
  · intro n hn hc
    simp only [Chain.refresh] at hn hc
    rw [a2] at hn
    rcases List.mem_append.1 hn with hn | hn
    · exact h.inq n (List.take_subset _ _ hn) hc
    · exact (hsc n).1 (a3 n hn)
  · show (vis.map Prod.fst).Sublist ((addNew (it.list.take it.index) (scan it.rev it.q s)).take it.index)
    rw [htk]; exact h.sub
  · intro n hn
    have : n ∈ (addNew (it.list.take it.index) (scan it.rev it.q s)).take it.index := hn
    rw [htk] at this
    exact h.past n this
  · show it.index ≤ (addNew (it.list.take it.index) (scan it.rev it.q s)).length
    rw [a2]; simp [hix]

theorem advance_spec (s : PS) : ∀ (l : List NId) (i : Nat),
    (∃ l1 n l2 c, l = l1 ++ n :: l2 ∧ (∀ m ∈ l1, (s.nodes m).comp = none) ∧ (s.nodes n).comp = some c ∧ advance s l i = (some c, i + l1.length + 1)) ∨
    ((∀ m ∈ l, (s.nodes m).comp = none) ∧ advance s l i = (none, i + l.length))
  | [], i => .inr ⟨by simp, by simp [advance]⟩
  | a :: l, i => by
    cases hc : (s.nodes a).comp with
    | some c => left; exact ⟨[], a, l, c, rfl, by simp, hc, by simp [advance, hc]⟩
    | none =>
      rcases advance_spec s l (i + 1) with ⟨l1, n, l2, c, h1, h2, h3, h4⟩ | ⟨h1, h2⟩
      · left
        refine ⟨a :: l1, n, l2, c, by simp [h1], ?_, h3, ?_⟩
        · intro m hm
          rcases List.mem_cons.1 hm with rfl | hm
          · exact hc
          · exact h2 m hm
        · unfold advance; rw [hc]; simp only [h4, List.length_cons]; congr 1; omega
      · right
        refine ⟨?_, ?_⟩
        · intro m hm
          rcases List.mem_cons.1 hm with rfl | hm
          · exact hc
          · exact h1 m hm
        · unfold advance; rw [hc]; simp only [h2, List.length_cons]; congr 1; omega

theorem LInv.advance {s ids it ys lv vis} (h : LInv s ids it ys lv vis) (hix : it.index ≤ it.list.length)
    {l1 n l2 c} (hl : it.list.drop it.index = l1 ++ n :: l2) (h1 : ∀ m ∈ l1, (s.nodes m).comp = none) (hc : (s.nodes n).comp = some c) :
    LInv s ids { it with index := it.index + l1.length + 1 } (ys ++ [c]) lv (vis ++ [(n, c)]) ∧ it.index + l1.length + 1 ≤ it.list.length := by
  have hlist : it.list = it.list.take it.index ++ (l1 ++ n :: l2) := by rw [← hl, List.take_append_drop]
  have hlen : (it.list.take it.index).length = it.index := by simp [hix]
  have htk : it.list.take (it.index + l1.length + 1) = it.list.take it.index ++ (l1 ++ [n]) := by
    conv_lhs => rw [hlist]
    have e : it.index + l1.length + 1 = (it.list.take it.index).length + (l1.length + 1) := by rw [hlen]; omega
    rw [e, List.take_length_add_append]
    congr 1
    have e2 : l1.length + 1 = (l1 ++ [n]).length := by simp
    have e3 : l1 ++ n :: l2 = (l1 ++ [n]) ++ l2 := by simp
    rw [e2, e3, List.take_left]
  refine ⟨⟨h.key, h.nodup, h.lt, h.all, h.inq, by simp [h.eqs], ?_, ?_, ?_⟩, ?_⟩
  · show ((vis ++ [(n, c)]).map Prod.fst).Sublist (it.list.take (it.index + l1.length + 1))
    rw [htk, List.map_append]
    refine List.Sublist.append h.sub ?_
    simp
  · intro p hp
    rcases List.mem_append.1 hp with hp | hp
    · exact h.seen p hp
    · simp at hp; subst hp; exact .inl hc
  · intro m hm
    have hm' : m ∈ it.list.take (it.index + l1.length + 1) := hm
    rw [htk] at hm'
    rcases List.mem_append.1 hm' with hm' | hm'
    · rcases h.past m hm' with h2 | h2
      · exact .inl h2
      · right; rw [List.map_append]; exact List.mem_append_left _ h2
    · rcases List.mem_append.1 hm' with hm' | hm'
      · exact .inl (h1 m hm')
      · right; simp at hm'; simp [hm']
  · have := congrArg List.length hlist
    rw [List.length_append, hlen] at this
    simp at this
    omega

/-- the list after the possible refresh -/
def fresh (it : It) (s : PS) : It × PS := if isTouched it s then refresh it s else (it, s)

theorem iterNext_eq (it : It) (s : PS) (h : it.done = false) : iterNext it s =
    match advance (fresh it s).2 ((fresh it s).1.list.drop (fresh it s).1.index) (fresh it s).1.index with
    | (some c, i) => (some c, { (fresh it s).1 with index := i }, (fresh it s).2)
    | (none, i) => (none, { (fresh it s).1 with index := i, done := true },
        (fresh it s).2.setQ (fresh it s).1.q (fun x => { x with touched := x.touched.filter (fun p => p.1 ≠ (fresh it s).1.seq) })) := by
  unfold iterNext fresh
  rw [if_neg (by simp [h])]
  generalize (if isTouched it s = true then refresh it s else (it, s)) = p
  cases p
  rfl

theorem LInv.fresh {s ids it ys lv vis live} (h : LInv s ids it ys lv vis) (hr : Rep s live ids) (hq : live it.q) (hk : KeyInv s)
    (hix : it.index ≤ it.list.length) :
    LInv (fresh it s).2 ids (fresh it s).1 ys lv vis ∧ (fresh it s).1.index ≤ (fresh it s).1.list.length ∧
      ((fresh it s).1.seq, true) ∉ ((fresh it s).2.queues (fresh it s).1.q).touched ∧ (fresh it s).1.q = it.q ∧ (fresh it s).2.nodes = s.nodes := by
  unfold Chain.fresh
  split
  · have := h.refresh hr hq hk hix
    exact ⟨this.1, this.2.1, this.2.2, rfl, rfl⟩
  · rename_i ht
    exact ⟨h, hix, fun hm => ht ((isTouched_iff hk).2 hm), rfl, rfl⟩

theorem Loop.linv {q rev w it ys lv} (h : Loop q rev w it ys lv) : ∃ ids vis, Rep w.s w.Live ids ∧ (∀ q, q ∉ w.live → ids q = []) ∧
    LInv w.s ids it ys lv vis ∧ it.index ≤ it.list.length := by
  induction h with
  | @start w h hq =>
    obtain ⟨ids, hr, hn, _⟩ := h.rep
    have hsc := hr.toWf.scan hq rev
    have hids : (ids q).Nodup := by
      have := hr.nodup q hq
      unfold ring at this
      rw [List.nodup_cons, List.nodup_append] at this
      exact this.2.1
    have hm : ∀ n, n ∈ scan rev q w.s ↔ n ∈ ids q := by intro n; rw [hsc]; split <;> simp
    refine ⟨ids, [], (iterNew_rep hr q rev).1, hn, ⟨⟨false, ?_⟩, ?_, ?_, ?_, ?_, rfl, by simp, by simp, by simp [iterNew]⟩, by simp [iterNew]⟩
    · simp [iterNew, setQ_queues]
    · show (scan rev q w.s).Nodup
      rw [hsc]; split
      · exact List.nodup_reverse.2 hids
      · exact hids
    · intro n hn'
      exact hr.lt q hq n (mem_ring ((hm n).1 hn'))
    · intro _ n hn'
      exact (hm n).2 hn'
    · intro n hn' _
      exact (hm n).1 hn'
  | body o w' e h hs hf ih =>
    obtain ⟨ids, vis, hr, hn, hi, hix⟩ := ih
    have hm := h.meta
    obtain ⟨ids', hr', hn', hb, hq'⟩ := body_step hr hn hs hf (hm.1 ▸ hm.2.2.2)
    refine ⟨ids', vis, hr', hn', ?_, hix⟩
    have hk : KeyInv w'.s := (PReach.step o e h.preach hs).keyInv
    rw [hm.1] at hb
    have hb' := hm.1 ▸ hb
    have := hi.body (lv' := leaves q o e) (by rw [hm.1]; exact hb) hk
    exact this
  | @next w it ys lv c it' s' h hnx ih =>
    obtain ⟨ids, vis, hr, hn, hi, hix⟩ := ih
    have hm := h.meta
    have hq : w.Live it.q := by rw [hm.1]; exact hm.2.2.2
    have hk := h.preach.keyInv
    have hrep := (iterNext_rep hr it).1
    rw [hnx] at hrep
    obtain ⟨f1, f2, f3, f4, f5⟩ := hi.fresh hr hq hk hix
    rw [iterNext_eq it w.s hm.2.2.1] at hnx
    rcases advance_spec (Chain.fresh it w.s).2 ((Chain.fresh it w.s).1.list.drop (Chain.fresh it w.s).1.index) (Chain.fresh it w.s).1.index with
      ⟨l1, n, l2, c', e1, e2, e3, e4⟩ | ⟨e1, e2⟩
    · rw [e4] at hnx
      simp only at hnx
      cases hnx
      have := f1.advance f2 e1 e2 e3
      exact ⟨ids, _, hrep, hn, this.1, this.2⟩
    · rw [e2] at hnx
      cases hnx

/-- what the loop yields is in the queue at that moment -/
theorem Loop.yield_in {q rev w it ys lv c it' s'} (h : Loop q rev w it ys lv) (hn : iterNext it w.s = (some c, it', s')) : c ∈ order q w.s := by
  obtain ⟨ids, vis, hr, _, hi, hix⟩ := h.linv
  have hm := h.meta
  have hq : w.Live it.q := by rw [hm.1]; exact hm.2.2.2
  obtain ⟨f1, f2, f3, f4, f5⟩ := hi.fresh hr hq h.preach.keyInv hix
  rw [iterNext_eq it w.s hm.2.2.1] at hn
  rcases advance_spec (Chain.fresh it w.s).2 ((Chain.fresh it w.s).1.list.drop (Chain.fresh it w.s).1.index) (Chain.fresh it w.s).1.index with
    ⟨l1, n, l2, c', e1, e2, e3, e4⟩ | ⟨e1, e2⟩
  · rw [e4] at hn
    cases hn
    have hin : n ∈ (Chain.fresh it w.s).1.list := List.drop_subset _ _ (by rw [e1]; simp)
    have hni : n ∈ ids q := by rw [← hm.1, ← f4]; exact f1.inq n hin (by simp [e3])
    rw [f5] at e3
    exact (hr.mem_order hm.2.2.2 c).2 (by rw [(hr.qm c q n).2 ⟨hm.2.2.2, hni, e3⟩]; rfl)
  · rw [e2] at hn; cases hn

/-- who doesn't leave is yielded at most once -/
theorem Loop.once {q rev w it ys lv} (h : Loop q rev w it ys lv) {c} (hc : c ∉ lv) : ys.count c ≤ 1 := by
  obtain ⟨ids, vis, hr, _, hi, hix⟩ := h.linv
  have hm := h.meta
  have hnd : (vis.map Prod.fst).Nodup := (hi.nodup.sublist (List.take_sublist _ _)).sublist hi.sub
  have hall : ∀ p ∈ vis, p.2 = c → w.s.qm c q = some p.1 := by
    intro p hp hpc
    rcases hi.seen p hp with h1 | h1
    · have hin : p.1 ∈ it.list := List.take_subset _ _ (hi.sub.subset (List.mem_map_of_mem hp))
      refine (hr.qm c q p.1).2 ⟨hm.2.2.2, ?_, by rw [h1, hpc]⟩
      rw [← hm.1]; exact hi.inq _ hin (by simp [h1])
    · exact absurd (hpc ▸ h1.2) hc
  rw [← hi.eqs]
  clear hi
  induction vis with
  | nil => simp
  | cons a l ih =>
    rw [List.map_cons, List.nodup_cons] at hnd
    rw [List.map_cons, List.count_cons]
    by_cases hac : a.2 = c
    · have : (l.map Prod.snd).count c = 0 := by
        rw [List.count_eq_zero]
        intro hmem
        obtain ⟨p, hp, hpc⟩ := List.mem_map.1 hmem
        have e1 := hall a (by simp) hac
        have e2 := hall p (by simp [hp]) hpc
        rw [e1] at e2
        exact hnd.1 (List.mem_map.2 ⟨p, hp, (Option.some.inj e2).symm⟩)
      rw [this]; split <;> omega
    · have : (a.2 == c) = false := by simpa using hac
      rw [this]
      simpa using ih hnd.2 (fun p hp => hall p (by simp [hp]))

/-- at the end of the loop everything in the queue has been yielded -/
theorem Loop.complete {q rev w it ys lv it' s'} (h : Loop q rev w it ys lv) (hn : iterNext it w.s = (none, it', s')) :
    ∀ c ∈ order q w.s, c ∈ ys := by
  obtain ⟨ids, vis, hr, _, hi, hix⟩ := h.linv
  have hm := h.meta
  have hq : w.Live it.q := by rw [hm.1]; exact hm.2.2.2
  obtain ⟨f1, f2, f3, f4, f5⟩ := hi.fresh hr hq h.preach.keyInv hix
  rw [iterNext_eq it w.s hm.2.2.1] at hn
  rcases advance_spec (Chain.fresh it w.s).2 ((Chain.fresh it w.s).1.list.drop (Chain.fresh it w.s).1.index) (Chain.fresh it w.s).1.index with
    ⟨l1, n, l2, c', e1, e2, e3, e4⟩ | ⟨e1, e2⟩
  · rw [e4] at hn; cases hn
  · intro c hc
    obtain ⟨n, hqm⟩ := Option.isSome_iff_exists.1 ((hr.mem_order hm.2.2.2 c).1 hc)
    obtain ⟨_, hni, hnc⟩ := (hr.qm c q n).1 hqm
    have hin := f1.all f3 n (by rw [f4, hm.1]; exact hni)
    rw [← List.take_append_drop (Chain.fresh it w.s).1.index (Chain.fresh it w.s).1.list] at hin
    rw [← f5] at hnc
    rcases List.mem_append.1 hin with h1 | h1
    · rcases f1.past n h1 with h2 | h2
      · rw [h2] at hnc; cases hnc
      · obtain ⟨p, hp, hpn⟩ := List.mem_map.1 h2
        rw [← f1.eqs]
        refine List.mem_map.2 ⟨p, hp, ?_⟩
        rcases f1.seen p hp with h3 | h3
        · rw [hpn, hnc] at h3; exact (Option.some.inj h3).symm
        · rw [hpn, hnc] at h3; cases h3.1
    · have := e1 n h1
      rw [this] at hnc; cases hnc

/-- a loop without a body: `list(q)` -/
def collect : Nat → It → PS → Option (List CId)
  | 0, _, _ => none
  | f + 1, it, s =>
    match iterNext it s with
    | (none, _, _) => some []
    | (some c, it', s') => (collect f it' s').map (c :: ·)

theorem collect_spec {s live ids} (hr : Rep s live ids) {q} (hq : live q) : ∀ (r : List NId) (it : It) (f : Nat), it.q = q → it.done = false →
    isTouched it s = false → it.list.drop it.index = r → (∀ n ∈ r, n ∈ ids q) → r.length < f →
    ∃ cs, collect f it s = some cs ∧ cs.map some = r.map (fun n => (s.nodes n).comp) := by
  intro r
  induction r with
  | nil =>
    intro it f h1 h2 h3 h4 h5 h6
    cases f with
    | zero => simp at h6
    | succ f =>
      have hfr : fresh it s = (it, s) := by unfold fresh; rw [if_neg (by simp [h3])]
      unfold collect
      rw [iterNext_eq it s h2, hfr]
      simp only [h4, advance]
      exact ⟨[], rfl, rfl⟩
  | cons n r ih =>
    intro it f h1 h2 h3 h4 h5 h6
    cases f with
    | zero => simp at h6
    | succ f =>
      obtain ⟨c, hc⟩ := Option.isSome_iff_exists.1 (hr.comp q hq n (h5 n (by simp)))
      have hfr : fresh it s = (it, s) := by unfold fresh; rw [if_neg (by simp [h3])]
      unfold collect
      rw [iterNext_eq it s h2, hfr]
      simp only [h4, advance, hc]
      obtain ⟨cs, e1, e2⟩ := ih { it with index := it.index + 1 } f h1 h2 (by simpa [isTouched] using h3)
        (by show it.list.drop (it.index + 1) = r
            rw [← List.tail_drop, h4]; rfl)
        (fun m hm => h5 m (by simp [hm])) (by simpa using h6)
      exact ⟨c :: cs, by rw [e1]; rfl, by simp [e2, hc]⟩

theorem PReach.collect {w} (h : PReach w) {q} (hq : q ∈ w.live) (rev) (f : Nat) (hf : (order q w.s).length < f) :
    Chain.collect f (iterNew q rev w.s).1 (iterNew q rev w.s).2 = some (if rev then (order q w.s).reverse else order q w.s) := by
  obtain ⟨ids, hr, hn, _⟩ := h.rep
  have hr' := (iterNew_rep hr q rev).1
  have hsc := hr.toWf.scan hq rev
  have hoc := hr.order_comp hq
  have hlen : (ids q).length = (order q w.s).length := by simpa using congrArg List.length hoc
  have hk := (PReach.step (.iterNew q rev) none h (.op _ q _ rfl hq rfl)).keyInv
  have hnt : isTouched (iterNew q rev w.s).1 (iterNew q rev w.s).2 = false := by
    cases hx : isTouched (iterNew q rev w.s).1 (iterNew q rev w.s).2 with
    | false => rfl
    | true =>
      have := (isTouched_iff hk).1 hx
      simp only [iterNew, setQ_queues, if_true, List.mem_append, List.mem_singleton, Prod.mk.injEq, Bool.true_eq_false, and_false, or_false] at this
      have h2 := (h.keyInv q).2 _ (List.mem_map_of_mem this)
      simp at h2
  obtain ⟨cs, e1, e2⟩ := collect_spec hr' hq (scan rev q w.s) (iterNew q rev w.s).1 f rfl rfl hnt rfl
    (by intro n hn'; rw [hsc] at hn'; split at hn' <;> simpa using hn') (by rw [hsc]; split <;> simp [hlen, hf])
  rw [e1]
  congr 1
  refine List.map_injective_iff.2 (Option.some_injective _) ?_
  rw [e2, hsc]
  have hnodes : (iterNew q rev w.s).2.nodes = w.s.nodes := rfl
  rw [hnodes]
  split
  · rw [List.map_reverse, hoc, List.map_reverse]
  · rw [hoc]

end Chain
end Verif
