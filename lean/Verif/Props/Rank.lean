import Verif.Props.Turn

/-!
# honor_only_highest_priority: claim C90

With honor_only_highest_priority only requests of the best priority among those that wait for the resource are served, so somebody of a lower priority never passes
somebody of a higher priority; those of the same priority may pass each other, in contrast to honor_only_first (claim C30).
-/

namespace Verif
open World RView

theorem step_honorHighest {L : Lic} {v v' : RView} (s : Step L v v') (r : RId) : (v'.res r).honorHighest = (v.res r).honorHighest := by
  cases s with
  | oneof c b _ hv => subst hv; rfl
  | ask c r' q prio _ _ s => rw [s.res]
  | fail c s => rw [s.res]
  | honor c hon s => rw [s.res]
  | release c r' cl a _ s =>
    by_cases hx : r = r'
    · subst hx; rw [s.res]
    · rw [s.ores r hx]
  | anon r' a _ ha hv =>
    subst hv
    by_cases hx : r = r'
    · subst hx; simp
    · simp [hx]
  | cap r' k _ hv =>
    subst hv
    by_cases hx : r = r'
    · subst hx; simp
    · simp [hx]

/-- specification: if a request for `r` is served then nobody in the waiting list has a higher priority (a lower priority value) than the one that is served -/
def InRank (r : RId) (v v' : RView) : Prop := ∀ c hon, Honor c hon v v' → r ∈ hon →
  ∃ x ∈ (v.reqs r).1, x.c = c ∧ ∀ m ∈ (v.reqs r).1, x.prio ≤ m.prio

theorem inRank_of {r : RId} {v v' : RView} (hf : (v.res r).honorHighest = true) (hs : Queue.Sorted (v.reqs r).1) : InRank r v v' := by
  intro c hon hh hr
  obtain ⟨m, hm, hc, hd, h1, h2⟩ := hh.highest r hr hf
  refine ⟨m, hm, hc, fun n hn => ?_⟩
  rw [h2]
  cases hl : (v.reqs r).1 with
  | nil => rw [hl] at hn; cases hn
  | cons x rest =>
    rw [hl] at h1 hn hs
    simp only [List.head?_cons, Option.some.injEq] at h1
    subst h1
    rcases List.mem_cons.1 hn with rfl | hn
    · exact le_refl _
    · exact (List.pairwise_cons.1 hs).1 n hn

/-- C90: with honor_only_highest_priority, everything that is served in a call has the best priority of all that wait for the resource at that moment -/
theorem C90_in_rank {w : World} {r : RId} (h : Reach Any w) (hf : (w.res r).honorHighest = true) (fuel : Nat) (o : Op) :
    Relation.ReflTransGen (fun v v' => Step (byLic o) v v' ∧ InRank r v v') w.rv (exec fuel o w).world.rv := by
  have hs := (exec_refines (L := byLic o) h.coh fuel o (byLic_ok _ _)).2
  have h0 : Queue.Sorted (w.rv.reqs r).1 := Reach.sorted (q := .requesters r) (fun _ _ o _ => by cases o <;> simp [NoInsert]) h
  have key : ∀ v, Relation.ReflTransGen (Step (byLic o)) w.rv v → (v.res r).honorHighest = true ∧ Queue.Sorted (v.reqs r).1 ∧
      Relation.ReflTransGen (fun v v' => Step (byLic o) v v' ∧ InRank r v v') w.rv v := by
    intro v hv
    induction hv with
    | refl => exact ⟨hf, h0, .refl⟩
    | @tail v1 v2 _ s ih =>
      obtain ⟨i1, i2, i3⟩ := ih
      exact ⟨by rw [step_honorHighest s]; exact i1, step_sorted s i2, i3.tail ⟨s, inRank_of i1 i2⟩⟩
  exact (key _ hs).2.2

/-- the entries of `c` in the waiting list of `r`: those that are there were there before, unless `c` makes a request -/
theorem entry_step {L : Lic} {v v' : RView} (s : Step L v v') {c : CId} (hc : ¬ L.who c) {r : RId} {m : QMem} (hm : m ∈ (v'.reqs r).1) (h : m.c = c) :
    m ∈ (v.reqs r).1 := by
  rcases step_reqs s r with e | ⟨d, e⟩ | ⟨x, hx, l1, l2, e1, e2, _⟩
  · rwa [e] at hm
  · rw [e] at hm
    exact (List.mem_filter.1 hm).1
  · rw [e2] at hm
    rw [e1]
    rcases List.mem_append.1 hm with hm | hm
    · exact List.mem_append_left _ hm
    · rcases List.mem_cons.1 hm with rfl | hm
      · exact absurd (h ▸ hx) hc
      · exact List.mem_append_right _ hm

theorem entry_path {L : Lic} {v v' : RView} (s : Relation.ReflTransGen (Step L) v v') {c : CId} (hc : ¬ L.who c) {r : RId} {m : QMem}
    (hm : m ∈ (v'.reqs r).1) (h : m.c = c) : m ∈ (v.reqs r).1 := by
  induction s with
  | refl => exact hm
  | tail _ s ih => exact ih (entry_step s hc hm h)

/-- specification: `d` waits for `r` with a lower priority (a higher priority value) than `c` -/
def Below (w : World) (r : RId) (c d : CId) : Prop := ∀ m ∈ (w.queues (.requesters r)).mem, ∀ n ∈ (w.queues (.requesters r)).mem,
  m.c = c → n.c = d → m.prio < n.prio

/-- C90: with honor_only_highest_priority, as long as `c` waits for `r`, a component `d` that waits for `r` with a lower priority is not served, whatever is available -/
theorem C90_never_passes {w : World} {r : RId} {c d : CId} (h : Reach Any w) (hf : (w.res r).honorHighest = true)
    (hcd : Below w r c d) (fuel : Nat) (o : Op) (hc : NotRequestBy c o) (hd : NotRequestBy d o) (hn : NoNegative o)
    (hstill : c ∈ (exec fuel o w).world.inQ (.requesters r)) :
    (lookup ((exec fuel o w).world.comps d).claims r).getD 0 ≤ (lookup (w.comps d).claims r).getD 0 := by
  have hL : (duoLic c d).ok w o := by
    cases o with
    | request x args oneof put fa fd p ur k => exact ⟨⟨hc, hd⟩, fun _ _ => trivial⟩
    | release c args => exact hn
    | _ => trivial
  have hs := (exec_refines (L := duoLic c d) h.coh fuel o hL).2
  by_contra hh
  obtain ⟨v, v', h1, h2, h3, h4, h5⟩ := crossing hs (fun v => v.claim d r ≤ w.rv.claim d r) (le_refl _) hh
  have hv := coh_path h.coh h1
  rcases claim_duo hv h3 d r with h6 | ⟨hon, h6, h7⟩
  · exact h4 (h6.trans h2)
  have h0 : Queue.Sorted (w.rv.reqs r).1 := Reach.sorted (q := .requesters r) (fun _ _ o _ => by cases o <;> simp [NoInsert]) h
  have fwd : ∀ {b : RView}, Relation.ReflTransGen (Step (duoLic c d)) w.rv b → (b.res r).honorHighest = true ∧ Queue.Sorted (b.reqs r).1 := by
    intro b hb
    induction hb with
    | refl => exact ⟨hf, h0⟩
    | tail _ s ih => exact ⟨by rw [step_honorHighest s]; exact ih.1, step_sorted s ih.2⟩
  obtain ⟨f1, f2⟩ := fwd h1
  have wc : ¬ (duoLic c d).who c := fun hx => hx.1 rfl
  have wd : ¬ (duoLic c d).who d := fun hx => hx.2 rfl
  obtain ⟨m, hm, hmc⟩ : ∃ m ∈ ((exec fuel o w).world.rv.reqs r).1, m.c = c := by
    obtain ⟨m, hm, e⟩ := List.mem_map.1 hstill
    exact ⟨m, hm, e⟩
  have hmv : m ∈ (v.reqs r).1 := entry_path (h5.head h3) wc hm hmc
  obtain ⟨x, hx, hxd, hbest⟩ := inRank_of f1 f2 d hon h6 h7
  have hlt := hcd m (entry_path h1 wc hmv hmc) x (entry_path h1 wd hx hxd) hmc hxd
  exact absurd (hbest m hmv) (not_le.2 hlt)

/-! ## examples -/

/-- resource 4 has a capacity of 5 and honor_only_highest_priority; component 1 has claimed 4; component 2, with priority 0, wants 3; component 3, with priority 1,
wants 1, and component 5, also with priority 0, wants 2 -/
def rankW : World := execAll 20 (born 1 ++ [turnAsk 1 4 4 0, .step, .passivate 1] ++ born 2 ++ [turnAsk 2 4 3 0] ++ born 3 ++ [turnAsk 3 4 1 1] ++ born 5 ++
  [turnAsk 5 4 2 0]) turnShop

/-- component 1 gives back 1, so 2 is available, which is enough for component 3, but component 2 still waits, so it isn't served; component 5 is served, at the
same priority as component 2, although it came later -/
example : Reach Any rankW ∧ (rankW.res 4).honorHighest = true ∧ Below rankW 4 2 3 ∧ rankW.inQ (.requesters 4) = [2, 5, 3] ∧
    NoNegative (.release 1 [(4, some 1)]) ∧ 2 ∈ (exec 20 (.release 1 [(4, some 1)]) rankW).world.inQ (.requesters 4) ∧
    (exec 20 (.release 1 [(4, some 1)]) rankW).world.inQ (.requesters 4) = [2, 3] ∧
    ((exec 20 (.release 1 [(4, some 1)]) rankW).world.res 4).claimed = 5 := by
  refine ⟨reach_execAll _ (.init fresh_turnShop) _, by decide +kernel, by unfold Below; decide +kernel, by decide +kernel, ?_, by decide +kernel, by decide +kernel,
    by decide +kernel⟩
  simp [NoNegative]

end Verif
