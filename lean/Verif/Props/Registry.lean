import Verif.Registry
import Mathlib.Tactic.Cases
import Mathlib.Data.List.Basic

/-!
# C99: registries, C100: leaving out histograms
-/

namespace Verif
namespace Reg

/-- `==` can tell `o` from the other objects in `l`: either all are monitors or none is, and other queues don't have the same components in them -/
def Tells (cs : Contents) (o : Obj) (l : List Obj) : Prop :=
  ∀ x ∈ l, x ≠ o → (x.kind = .monitor ↔ o.kind = .monitor) ∧ (x.kind = .queue → o.kind = .queue → cs x.id ≠ cs o.id)

theorem eq_tells {cs : Contents} {o x : Obj} (h : (x.kind = .monitor ↔ o.kind = .monitor) ∧ (x.kind = .queue → o.kind = .queue → cs x.id ≠ cs o.id)) (hx : x ≠ o) :
    eq cs x o = .ok false := by
  obtain ⟨k, i⟩ := x
  obtain ⟨k', j⟩ := o
  have hs := hx.symm
  cases k <;> cases k' <;> simp_all [eq, eqMethod]

theorem isIn_tells {cs : Contents} {o : Obj} : ∀ {l : List Obj}, Tells cs o l → isIn cs o l = .ok (decide (o ∈ l))
  | [], _ => by simp [isIn]
  | x :: l, h => by
    unfold isIn
    by_cases hx : x = o
    · simp [hx]
    · have hx' : ¬ o = x := fun e => hx e.symm
      rw [if_neg hx, eq_tells (h x (by simp) hx) hx]
      simp only
      rw [isIn_tells fun y hy => h y (by simp [hy])]
      simp [hx']

theorem remove_tells {cs : Contents} {o : Obj} : ∀ {l : List Obj}, Tells cs o l → o ∈ l → remove cs o l = .ok (l.erase o)
  | [], _, hm => by simp at hm
  | x :: l, h, hm => by
    unfold remove
    by_cases hx : x = o
    · simp [hx]
    · have hx' : ¬ o = x := fun e => hx e.symm
      rw [if_neg hx, eq_tells (h x (by simp) hx) hx]
      simp only
      rw [remove_tells (fun y hy => h y (by simp [hy])) (by simpa [hx'] using hm), List.erase_cons_tail (by simpa using hx)]

/-- C99: register adds the object at the end, and is refused if it's already there; deregister takes exactly that object out and is refused if it's not there. As long as
`==` can tell the object from the others -/
theorem C99_register {cs : Contents} {o : Obj} {l : List Obj} (h : Tells cs o l) :
    (o ∉ l → register cs o l = .ok (l ++ [o]) ∧ deregister cs o l = .error .value) ∧
    (o ∈ l → register cs o l = .error .value) ∧
    (∀ l1 l2, l = l1 ++ o :: l2 → o ∉ l1 → deregister cs o l = .ok (l1 ++ l2)) := by
  unfold register deregister
  rw [isIn_tells h]
  refine ⟨fun ho => by simp [ho], fun ho => by simp [ho], fun l1 l2 hl h1 => ?_⟩
  have ho : o ∈ l := by simp [hl]
  simp only [ho, decide_true]
  rw [remove_tells h ho, hl, List.erase_append_right _ h1, List.erase_cons_head]

/-- C99: after any calls of register and deregister, also if some raise an exception, an object is in the registry if it was registered and not deregistered since, once,
and the objects are in the order in which they came -/
theorem C99_history (calls : List (Contents × Call)) (hT : ∀ p ∈ calls, Tells p.1 p.2.obj (calls.map (·.2.obj))) :
    (run calls).Nodup ∧
    (∀ o, o ∈ run calls ↔ ∃ l1 cs l2, calls = l1 ++ (cs, .reg o) :: l2 ∧ ∀ p ∈ l2, p.2 ≠ .dereg o) ∧
    (∀ a b, [a, b].Sublist (run calls) →
      ∃ l1 cs l2, calls = l1 ++ (cs, .reg b) :: l2 ∧ a ∈ run l1 ∧ b ∉ run l1 ∧ ∀ p ∈ l2, p.2 ≠ .dereg a ∧ p.2 ≠ .dereg b) := by
  induction calls using List.reverseRecOn with
  | nil => simp [run]
  | append_singleton l c ih =>
    obtain ⟨hn, hm, ho⟩ := ih fun p hp x hx => hT p (by simp [hp]) x (by simp only [List.map_append, List.mem_append]; exact Or.inl hx)
    have hsub : ∀ x ∈ run l, x ∈ (l ++ [c]).map (·.2.obj) := by
      intro x hx
      obtain ⟨l1, cs, l2, rfl, -⟩ := (hm x).1 hx
      simp [Call.obj]
    have ht : Tells c.1 c.2.obj (run l) := fun x hx => hT c (by simp) x (hsub x hx)
    have hrun : run (l ++ [c]) = call (run l) c := by simp [run]
    rw [hrun]
    obtain ⟨cs, c | c⟩ := c
    · have hc : call (run l) (cs, .reg c) = if c ∈ run l then run l else run l ++ [c] := by
        obtain ⟨h1, h2, -⟩ := C99_register ht
        unfold call
        by_cases hin : c ∈ run l
        · rw [if_pos hin]; simp only; rw [show register cs c (run l) = _ from h2 hin]
        · rw [if_neg hin]; simp only; rw [show register cs c (run l) = _ from (h1 hin).1]; rfl
      rw [hc]
      have keep : ∀ o, o ∈ run l → ∃ l1 cs' l2, l ++ [(cs, Call.reg c)] = l1 ++ (cs', .reg o) :: l2 ∧ ∀ p ∈ l2, p.2 ≠ .dereg o := by
        intro o hi
        obtain ⟨l1, cs', l2, rfl, h2⟩ := (hm o).1 hi
        refine ⟨l1, cs', l2 ++ [(cs, .reg c)], by simp, ?_⟩
        intro p hp
        rcases List.mem_append.1 hp with hp | hp
        · exact h2 p hp
        · simp at hp; subst hp; simp
      have keepO : ∀ a b, [a, b].Sublist (run l) → ∃ l1 cs' l2, l ++ [(cs, Call.reg c)] = l1 ++ (cs', .reg b) :: l2 ∧ a ∈ run l1 ∧ b ∉ run l1 ∧
          ∀ p ∈ l2, p.2 ≠ .dereg a ∧ p.2 ≠ .dereg b := by
        intro a b hs
        obtain ⟨l1, cs', l2, rfl, h1, h2, h3⟩ := ho a b hs
        refine ⟨l1, cs', l2 ++ [(cs, .reg c)], by simp, h1, h2, ?_⟩
        intro p hp
        rcases List.mem_append.1 hp with hp | hp
        · exact h3 p hp
        · simp at hp; subst hp; simp
      have back : ∀ o, o ≠ c → (∃ l1 cs' l2, l ++ [(cs, Call.reg c)] = l1 ++ (cs', .reg o) :: l2 ∧ ∀ p ∈ l2, p.2 ≠ .dereg o) → o ∈ run l := by
        rintro o hoc ⟨l1, cs', l2, he, h2⟩
        rcases List.eq_nil_or_concat l2 with rfl | ⟨l2', z, rfl⟩
        · have := (List.append_inj' he rfl).2
          simp only [List.cons.injEq, Prod.mk.injEq, Call.reg.injEq] at this
          exact absurd this.1.2.symm hoc
        · have he' : l ++ [(cs, Call.reg c)] = (l1 ++ (cs', .reg o) :: l2') ++ [z] := by simpa using he
          exact (hm o).2 ⟨l1, cs', l2', (List.append_inj' he' rfl).1, fun p hp => h2 p (by simp [hp])⟩
      by_cases hin : c ∈ run l
      · rw [if_pos hin]
        refine ⟨hn, fun o => ⟨keep o, fun h => ?_⟩, keepO⟩
        by_cases hoc : o = c
        · rw [hoc]; exact hin
        · exact back o hoc h
      · rw [if_neg hin]
        refine ⟨?_, fun o => ⟨fun h => ?_, fun h => ?_⟩, fun a b hs => ?_⟩
        · rw [List.nodup_append]
          exact ⟨hn, by simp, by simp only [List.mem_singleton]; rintro a ha b rfl rfl; exact hin ha⟩
        · rcases List.mem_append.1 h with h | h
          · exact keep o h
          · rw [List.mem_singleton] at h; subst h
            exact ⟨l, cs, [], rfl, by simp⟩
        · by_cases hoc : o = c
          · simp [hoc]
          · exact List.mem_append.2 (Or.inl (back o hoc h))
        · obtain ⟨s1, s2, he, h1, h2⟩ := List.sublist_append_iff.1 hs
          rcases s2 with _ | ⟨z, s2⟩
          · rw [List.append_nil] at he; rw [he] at hs
            exact keepO a b (by rw [he]; exact h1)
          · have hl := h2.length_le
            have hs2 : s2 = [] := by cases s2 <;> simp_all
            subst hs2
            have hz : z = c := by simpa using h2
            subst hz
            have := List.append_inj' (show [a] ++ [b] = s1 ++ [z] from he) rfl
            obtain ⟨rfl, hb⟩ := this
            obtain rfl : b = z := by simpa using hb
            exact ⟨l, cs, [], rfl, by simpa using h1, hin, by simp⟩
    · have hc : call (run l) (cs, .dereg c) = (run l).erase c := by
        obtain ⟨h1, -, h3⟩ := C99_register ht
        unfold call
        by_cases hin : c ∈ run l
        · obtain ⟨l1, l2, hn1, he, hr⟩ := List.exists_erase_eq hin
          simp only
          rw [show deregister cs c (run l) = _ from h3 l1 l2 he hn1, hr]
        · simp only
          rw [show deregister cs c (run l) = _ from (h1 hin).2, List.erase_of_not_mem hin]
      rw [hc]
      refine ⟨hn.erase c, fun o => ⟨fun h => ?_, ?_⟩, fun a b hs => ?_⟩
      · rw [hn.mem_erase_iff] at h
        obtain ⟨l1, cs', l2, rfl, h2⟩ := (hm o).1 h.2
        refine ⟨l1, cs', l2 ++ [(cs, .dereg c)], by simp, ?_⟩
        intro p hp
        rcases List.mem_append.1 hp with hp | hp
        · exact h2 p hp
        · simp at hp; subst hp
          intro e; simp at e; exact h.1 e.symm
      · rintro ⟨l1, cs', l2, he, h2⟩
        rcases List.eq_nil_or_concat l2 with rfl | ⟨l2', z, rfl⟩
        · have := (List.append_inj' he rfl).2
          simp at this
        · have he' : l ++ [(cs, Call.dereg c)] = (l1 ++ (cs', .reg o) :: l2') ++ [z] := by simpa using he
          have hz := List.append_inj' he' rfl
          have hzc : z = (cs, .dereg c) := by simpa using hz.2.symm
          rw [hn.mem_erase_iff]
          refine ⟨?_, (hm o).2 ⟨l1, cs', l2', hz.1, fun p hp => h2 p (by simp [hp])⟩⟩
          rintro rfl
          exact h2 z (by simp) (by rw [hzc])
      · have ha : a ∈ (run l).erase c := hs.subset (by simp)
        have hb : b ∈ (run l).erase c := hs.subset (by simp)
        rw [hn.mem_erase_iff] at ha hb
        obtain ⟨l1, cs', l2, rfl, h1, h2, h3⟩ := ho a b (hs.trans List.erase_sublist)
        refine ⟨l1, cs', l2 ++ [(cs, .dereg c)], by simp, h1, h2, ?_⟩
        intro p hp
        rcases List.mem_append.1 hp with hp | hp
        · exact h3 p hp
        · simp at hp; subst hp
          exact ⟨fun e => ha.1 (by simpa using e.symm), fun e => hb.1 (by simpa using e.symm)⟩

/-- components, states, resources and monitors can always be told apart, if monitors have a registry of their own -/
theorem tells_of_kind {cs : Contents} {o : Obj} {l : List Obj} (hq : o.kind ≠ .queue) (hm : ∀ x ∈ l, x.kind = .monitor ↔ o.kind = .monitor) : Tells cs o l :=
  fun x hx _ => ⟨hm x hx, fun _ h => absurd h hq⟩

/-- non-vacuity of C99: components 1, 2 and 3; 1 is registered twice, 2 leaves and comes back, 4 leaves without having been there -/
example : run ([.reg ⟨.component, 1⟩, .reg ⟨.component, 2⟩, .reg ⟨.resource, 1⟩, .reg ⟨.component, 1⟩, .dereg ⟨.component, 2⟩, .dereg ⟨.component, 4⟩,
    .reg ⟨.component, 2⟩].map fun c => (fun _ => ∅, c)) = [⟨.component, 1⟩, ⟨.resource, 1⟩, ⟨.component, 2⟩] := by decide +kernel

/-- a queue can't be registered next to another queue with the same components in it, for instance if both are empty; deregister of a queue takes another queue with the
same components out, even if it was never registered itself -/
theorem C99_queues_counterexample (cs : Contents) {q p : Obj} (hq : q.kind = .queue) (hp : p.kind = .queue) (hne : q ≠ p) (hc : cs q.id = cs p.id) :
    p ∉ [q] ∧ register cs p [q] = .error .value ∧ deregister cs p [q] = .ok [] ∧ deregister cs p [q, p] = .ok [p] := by
  obtain ⟨k, i⟩ := q
  obtain ⟨k', j⟩ := p
  simp only at hq hp hc
  subst hq hp
  simp only [ne_eq, Obj.mk.injEq, true_and] at hne
  have : ¬ j = i := fun e => hne e.symm
  simp [register, deregister, isIn, remove, eq, eqMethod, hne, hc, this]

/-- non-vacuity: two empty queues, and the two last of three queues with components in them, that can be told apart from the first one -/
example : register (fun _ => ∅) ⟨.queue, 2⟩ [⟨.queue, 1⟩] = .error .value ∧
    register (fun n => if n = 1 then {7} else {8}) ⟨.queue, 2⟩ [⟨.queue, 1⟩] = .ok [⟨.queue, 1⟩, ⟨.queue, 2⟩] ∧
    deregister (fun n => if n = 1 then {7} else {8}) ⟨.queue, 3⟩ [⟨.queue, 1⟩, ⟨.queue, 2⟩, ⟨.queue, 3⟩] = .ok [⟨.queue, 1⟩, ⟨.queue, 3⟩] := by
  refine ⟨?_, ?_, ?_⟩ <;> decide +kernel

/-- a monitor can't be registered after an object of another kind and nothing else after a monitor: TypeError -/
theorem C99_monitors_counterexample (cs : Contents) {m x : Obj} (hm : m.kind = .monitor) (hx : x.kind ≠ .monitor) (l : List Obj) :
    register cs m (x :: l) = .error .type ∧ register cs x (m :: l) = .error .type := by
  obtain ⟨k, i⟩ := m
  obtain ⟨k', j⟩ := x
  simp only at hm
  subst hm
  cases k' <;> simp_all [register, isIn, eq, eqMethod]

/-! ## C100 -/

/-- C100: print_histograms(exclude) of a queue shows the histograms of exactly the monitors that are not excluded, if only monitors are excluded -/
theorem C100_queue (cs : Contents) {exclude ms : List Obj} (he : ∀ x ∈ exclude, x.kind = .monitor) (hm : ∀ m ∈ ms, m.kind = .monitor) :
    shown cs exclude ms = .ok (ms.filter fun m => decide (m ∉ exclude)) := by
  induction ms with
  | nil => rfl
  | cons m ms ih =>
    unfold shown
    have hk := hm m (by simp)
    rw [isIn_tells (tells_of_kind (by simp [hk]) fun x hx => by simp [hk, he x hx]), ih fun x hx => hm x (by simp [hx])]
    by_cases h : m ∈ exclude <;> simp [h]

/-- C100: print_histograms() of a resource or a state shows the histograms of all monitors of its queues and its own -/
theorem C100_all (cs : Contents) (qs : List (Obj × Obj × Obj)) (ms : List Obj) : printed cs [] qs ms = .ok ((qs.flatMap fun q => [q.2.1, q.2.2]) ++ ms) := by
  have h1 : ∀ ms, shown cs [] ms = .ok ms := by
    intro ms
    induction ms with
    | nil => rfl
    | cons m ms ih => simp [shown, isIn, ih]
  have h2 : shownQ cs [] qs = .ok (qs.flatMap fun q => [q.2.1, q.2.2]) := by
    induction qs with
    | nil => rfl
    | cons q qs ih => simp [shownQ, isIn, ih, h1]
  simp [printed, h1, h2]

theorem isIn_err {cs : Contents} {o : Obj} {l : List Obj} {e} (h : isIn cs o l = .error e) : e = .type := by
  have hm : ∀ a b e, eqMethod cs a b = .error e → e = .type := by
    intro a b e h
    unfold eqMethod at h
    split at h
    · split at h <;> simp_all
    · simp at h
    · simp at h
  have heq : ∀ a b e, eq cs a b = .error e → e = .type := by
    intro a b e h
    unfold eq at h
    split at h
    · rename_i h'; cases h; exact hm _ _ _ h'
    · simp at h
    · split at h
      · rename_i h'; cases h; exact hm _ _ _ h'
      · simp at h
      · simp at h
  induction l with
  | nil => simp [isIn] at h
  | cons x l ih =>
    unfold isIn at h
    split at h
    · simp at h
    · split at h
      · rename_i h'; cases h; exact heq _ _ _ h'
      · simp at h
      · exact ih h

theorem shown_err {cs : Contents} {ex ms : List Obj} {e} (h : shown cs ex ms = .error e) : e = .type := by
  induction ms with
  | nil => simp [shown] at h
  | cons m ms ih =>
    unfold shown at h
    split at h
    · rename_i h'; cases h; exact isIn_err h'
    · split at h
      · rename_i h'; cases h; exact ih h'
      · simp at h

theorem shownQ_err {cs : Contents} {ex : List Obj} {qs} {e} (h : shownQ cs ex qs = .error e) : e = .type := by
  induction qs with
  | nil => simp [shownQ] at h
  | cons q qs ih =>
    unfold shownQ at h
    split at h
    · rename_i h'; cases h; exact isIn_err h'
    · split at h
      · rename_i h'
        cases h
        split at h'
        · simp at h'
        · exact shown_err h'
      · split at h
        · rename_i h'; cases h; exact ih h'
        · simp at h

/-- print_histograms(exclude) of a resource or a state always raises a TypeError, whatever queues and monitors are to be excluded -/
theorem C100_exclude_counterexample (cs : Contents) {exclude : List Obj} (hne : exclude ≠ []) (he : ∀ x ∈ exclude, x.kind = .monitor ∨ x.kind = .queue)
    {q : Obj × Obj × Obj} {qs : List (Obj × Obj × Obj)} {m : Obj} {ms : List Obj} (hq : q.1.kind = .queue) (hm : m.kind = .monitor) :
    printed cs exclude (q :: qs) (m :: ms) = .error .type := by
  cases exclude with
  | nil => simp at hne
  | cons x l =>
    have hx := he x (by simp)
    have key : ∀ o : Obj, ((x.kind = .monitor ∧ o.kind = .queue) ∨ (x.kind = .queue ∧ o.kind = .monitor)) → isIn cs o (x :: l) = .error .type := by
      intro o ho
      have hxo : x ≠ o := by rintro rfl; rcases ho with ⟨a, b⟩ | ⟨a, b⟩ <;> rw [a] at b <;> simp at b
      unfold isIn
      rw [if_neg hxo]
      rcases ho with ⟨a, b⟩ | ⟨a, b⟩ <;> simp [eq, eqMethod, a, b]
    unfold printed
    cases hs : shownQ cs (x :: l) (q :: qs) with
    | error e => rw [shownQ_err hs]
    | ok l1 =>
      rcases hx with hx | hx
      · unfold shownQ at hs
        rw [key q.1 (Or.inl ⟨hx, hq⟩)] at hs
        simp at hs
      · simp only
        unfold shown
        rw [key m (Or.inr ⟨hx, hm⟩)]

/-- non-vacuity of C100: monitors 1 and 2 of queue 5 -/
example : shown (fun _ => ∅) [⟨.monitor, 1⟩, ⟨.monitor, 7⟩] [⟨.monitor, 1⟩, ⟨.monitor, 2⟩] = .ok [⟨.monitor, 2⟩] ∧
    printed (fun _ => ∅) [] [(⟨.queue, 5⟩, ⟨.monitor, 1⟩, ⟨.monitor, 2⟩)] [⟨.monitor, 3⟩] = .ok [⟨.monitor, 1⟩, ⟨.monitor, 2⟩, ⟨.monitor, 3⟩] ∧
    printed (fun _ => ∅) [⟨.monitor, 3⟩] [(⟨.queue, 5⟩, ⟨.monitor, 1⟩, ⟨.monitor, 2⟩)] [⟨.monitor, 3⟩] = .error .type := by
  refine ⟨?_, ?_, ?_⟩ <;> rfl

end Reg
end Verif
