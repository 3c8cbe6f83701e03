import Verif.ChainSets

/-!
# What a history of queue operations means, in terms of what can be observed
-/

namespace Verif
namespace Chain
open Queue (QR)

/-- everything that can be observed of a queue -/
def view (q : QId) (s : PS) : Queue :=
  { mem := content q s, cap := (s.queues q).cap, arrivals := (s.queues q).arrivals, departures := (s.queues q).departures,
    arrivalsT0 := (s.queues q).arrivalsT0, departuresT0 := (s.queues q).departuresT0,
    stays := (s.queues q).stays, lens := (s.queues q).lens.map (fun p => (p.1, p.2.toNat)) }

theorem Rep.view {s live ids} (h : Rep s live ids) {q} (hq : live q) : abs s ids q = Chain.view q s := by
  unfold Chain.view; rw [h.content hq]; rfl

theorem PReach.qinv {w} (h : PReach w) {q} (hq : q ∈ w.live) : Queue.QInv w.s.now (view q w.s) := by
  obtain ⟨ids, hr, _, hi⟩ := h.rep
  rw [← hr.view hq]; exact hi q hq

/-- a step that doesn't raise is the list operation -/
theorem step_ok {w o w' q} (h : PReach w) (hs : PStep w o w' none) (ho : o.queue = some q) :
    lop o w.s.now (view q w.s) = .ok (view q w'.s) ∧ q ∈ w.live ∧ w'.live = w.live ∧ ∀ p ∈ w.live, p ≠ q → view p w'.s = view p w.s := by
  obtain ⟨ids, hr, _, _⟩ := h.rep
  cases hs with
  | create => simp [POp.queue] at ho
  | createCopy => simp [POp.queue] at ho
  | tick => simp [POp.queue] at ho
  | op o q2 s' ho' hq hp =>
    rw [ho] at ho'; cases ho'
    have := prun1_sim hr ho hq
    rw [hr.view hq] at this
    split at this
    · rw [hp] at this; cases this
    · rename_i q' hl
      obtain ⟨s2, ids', a, b, d, e, f, g⟩ := this
      rw [hp] at a; cases a
      refine ⟨by rw [hl, ← d, b.view hq], hq, rfl, ?_⟩
      intro p hp hpq
      rw [← b.view hp, ← hr.view hp]; exact e p hpq hp

/-- a step that raises changes nothing -/
theorem step_err {w o w' er} (h : PReach w) (hs : PStep w o w' (some er)) :
    w' = w ∧ ∃ q ∈ w.live, o.queue = some q ∧ lop o w.s.now (view q w.s) = .notOk er := by
  obtain ⟨ids, hr, _, _⟩ := h.rep
  cases hs with
  | raise o q e s' ho hq hp =>
    refine ⟨by rw [raise_same hr ho hq hp], q, hq, ho, ?_⟩
    have := prun1_sim hr ho hq
    rw [hr.view hq] at this
    split at this
    · rename_i e' he; rw [hp] at this; cases this; exact he
    · obtain ⟨s2, ids', a, _⟩ := this
      rw [hp] at a; cases a

/-- creation of a queue and passing of time don't change any queue -/
theorem step_other {w o w' e} (h : PReach w) (hs : PStep w o w' e) (ho : o.queue = none) : e = none ∧ (∀ p ∈ w.live, view p w'.s = view p w.s ∧ p ∈ w'.live) ∧ w.s.now ≤ w'.s.now := by
  have hv : ∀ {s' : PS} {p}, content p s' = content p w.s → s'.queues p = w.s.queues p → view p s' = view p w.s := by
    intro s' p h1 h2; unfold view; rw [h1, h2]
  obtain ⟨ids, hr, hn, _⟩ := h.rep
  cases hs with
  | create q cap hq =>
    refine ⟨rfl, fun p hp => ⟨hv ?_ ?_, List.mem_cons_of_mem _ hp⟩, le_refl _⟩
    · have hr' := newQueue_rep hr hq cap (hn q hq)
      rw [hr'.content (.inr hp), hr.content hp]
      simp only [abs]
      refine List.map_congr_left fun n hn' => mem_congr ?_
      have hlt := hr.lt p hp n (mem_ring hn')
      have : (newQueue q cap w.s).nodes n = w.s.nodes n := by
        unfold newQueue
        simp only [setQ_nodes, setN_nodes]
        rw [if_neg (nat_ne hlt), if_neg (ne_of_lt hlt)]
      rw [this]; exact ⟨rfl, rfl, rfl⟩
    · have : p ≠ q := fun h => hq (h ▸ hp)
      simp [newQueue, setQ_queues, this]
  | createCopy q cap hq =>
    refine ⟨rfl, fun p hp => ⟨hv ((newCopy_step h hq cap).2.2.1 p hp) ?_, List.mem_cons_of_mem _ hp⟩, le_refl _⟩
    have : p ≠ q := fun h => hq (h ▸ hp)
    simp [newCopy, newQueue, setQ_queues, this]
  | tick d hd =>
    have hr' : Rep { w.s with now := w.s.now + d } w.Live ids :=
      ⟨⟨hr.chain, hr.nodup, hr.disj, hr.lt⟩, hr.len, hr.hd, hr.tl, hr.qm, hr.comp, hr.avail⟩
    refine ⟨rfl, fun p hp => ⟨hv ?_ rfl, hp⟩, by simpa using hd⟩
    rw [hr'.content hp, hr.content hp]; rfl
  | op o q s' ho' => rw [ho] at ho'; cases ho'
  | raise o q e s' ho' => rw [ho] at ho'; cases ho'

/-- the states after `w` in a history of operations for which `ok` holds -/
inductive PAfter (ok : POp → Prop) (w : PW) : PW → Prop
  | refl : PAfter ok w w
  | step {w1 w2} (o e) : PAfter ok w w1 → ok o → PStep w1 o w2 e → PAfter ok w w2

theorem PAfter.reach {ok w w'} (h : PReach w) (h' : PAfter ok w w') : PReach w' := by
  induction h' with
  | refl => exact h
  | step o e _ _ hs ih => exact .step o e ih hs

theorem PAfter.live {ok w w'} (h' : PAfter ok w w') {q} (hq : q ∈ w.live) : q ∈ w'.live := by
  induction h' with
  | refl => exact hq
  | step o e _ _ hs ih =>
    cases hs with
    | create => exact List.mem_cons_of_mem _ ih
    | createCopy => exact List.mem_cons_of_mem _ ih
    | tick => exact ih
    | op => exact ih
    | raise => exact ih

/-- how any step changes one queue -/
theorem step_view {w o w' e q} (h : PReach w) (hs : PStep w o w' e) (hq : q ∈ w.live) :
    view q w'.s = view q w.s ∨ (e = none ∧ o.queue = some q ∧ lop o w.s.now (view q w.s) = .ok (view q w'.s)) := by
  cases ho : o.queue with
  | none => exact .inl ((step_other h hs ho).2.1 q hq).1
  | some q2 =>
    cases e with
    | some er => exact .inl (by rw [(step_err h hs).1])
    | none =>
      have := step_ok h hs ho
      by_cases hqq : q = q2
      · subst hqq; exact .inr ⟨rfl, rfl, this.1⟩
      · exact .inl (this.2.2.2 q hq hqq)

end Chain
end Verif
